#!/usr/bin/env python3
"""Checks rule 3: every theorem Cnn_... that has hypotheses is applied to a concrete case in lean/Verif/Witness/, with all
hypotheses discharged. Run from anywhere, after `lake build`. Prints what is missing."""
import glob, os, re, subprocess, tempfile

ROOT = os.path.join(os.path.dirname(os.path.abspath(__file__)), "..", "lean")

LIST = r"""import Verif
open Lean Meta
#eval show MetaM Unit from do
  let env ← getEnv
  let mut rows : Array (String × Nat × String) := #[]
  for (n, ci) in env.constants.map₁.toList do
    if ci.isTheorem then
      let .str _ s := n | continue
      if s.length > 4 && s.startsWith "C" && (s.toList[3]! == '_' || s.toList[4]! == '_' && s.toList[3]!.isDigit) && n.getPrefix == `Magnesia then
        let some mi := env.getModuleIdxFor? n | continue
        let mod := env.header.moduleNames[mi.toNat]!
        let line := match (← findDeclarationRanges? n) with | some r => r.range.pos.line | none => 0
        let r ← forallTelescope ci.type fun xs _ => do
          let mut hs : Array String := #[]
          for x in xs do
            let t ← inferType x
            let d ← x.fvarId!.getDecl
            if (← isProp t) && d.binderInfo != .instImplicit then
              let f ← ppExpr t
              hs := hs.push (" ".intercalate ((toString (f.pretty 2000)).splitOn "\n"))
          return hs
        rows := rows.push (mod.toString, line, s!"{s}: {r.toList}")
  let rs := rows.qsort (fun a b => a.1 < b.1 || (a.1 == b.1 && a.2.1 < b.2.1))
  for r in rs do IO.println s!"{r.1}:{r.2.1} {r.2.2}"
"""

CHECK = r"""
open Lean Meta Elab Command in
run_cmd liftTermElabM do
  for i in [1:COUNT] do
    let nm := `Magnesia.Witness ++ Name.mkSimple s!"zzw{i}"
    let some ci := (← getEnv).find? nm | logInfo s!"no {nm}"; continue
    let h := ci.value!.getAppFn.constName?
    forallTelescope ci.type fun xs _ => do
      let mut ps := #[]
      for x in xs do
        let t ← inferType x
        if ← isProp t then ps := ps.push (← ppExpr t)
      if ps.size > 0 then logInfo m!"{h} {ps}"
"""

def lean(text):
    with tempfile.NamedTemporaryFile("w", suffix=".lean", delete=False) as f:
        f.write(text)
    r = subprocess.run(["lake", "env", "lean", "-DautoImplicit=false", "-Dlinter.defProp=false", f.name], cwd=ROOT,
                       capture_output=True, text=True)
    os.unlink(f.name)
    return r.stdout + r.stderr

files = {f: open(f).read() for f in sorted(glob.glob(os.path.join(ROOT, "Verif/Witness/*.lean")))}
text = "\n".join(files.values())
total = conditional = missing = 0
for line in lean(LIST).splitlines():
    m = re.match(r"Verif\.Props\.\w+:\d+ (C\d\d\d?_\w+): (.*)$", line)
    if not m:
        print(line)
        continue
    total += 1
    if m[2] != "[]":
        conditional += 1
        if not re.search(r"\b%s\b" % m[1], text):
            missing += 1
            print("no case for", m[1])
print(total, "theorems,", conditional, "with hypotheses,", missing, "without a concrete case")
# an example may not leave a hypothesis open
for f, s in files.items():
    n = 0
    def name(_):
        global n
        n += 1
        return "noncomputable def zzw%d :=" % n
    s = re.sub(r"^example :=", name, s, flags=re.M)
    out = lean("import Lean\n" + s + CHECK.replace("COUNT", str(n + 1)))
    print(os.path.basename(f), n, "cases", "" if not out.strip() else "\n" + out)
