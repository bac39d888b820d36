#!/usr/bin/env python3
"""Lists the lines of executable Rust code in /repo/src that no comment in lean/Verif/Model cites. Test functions, comments,
attributes, use/mod lines and trait bounds are skipped: a line counts if it lies in a function body or is an impl header."""
import glob, os, re

ROOT = os.path.join(os.path.dirname(os.path.abspath(__file__)), "..")
cited = {}
for f in glob.glob(os.path.join(ROOT, "lean/Verif/Model/*.lean")):
    text = open(f).read()
    for m in re.finditer(r"(src/[\w/]+\.rs)((?:[:,]? ?\d+(?:-\d+)?,? ?(?:and )?)+)?", text):
        for a, b in re.findall(r"(\d+)(?:-(\d+))?", m[2] or ""):
            cited.setdefault(m[1], set()).update(range(int(a), int(b or a) + 1))
total = miss = 0
for f in sorted(glob.glob("/repo/src/**/*.rs", recursive=True)):
    rel = f[len("/repo/"):]
    lines = open(f).read().split("\n")
    depth = 0
    test_until = None      # brace depth at which the test function ends
    pending_test = False
    body = []              # depths of open fn bodies
    fn_pending = False
    want = []
    for i, l in enumerate(lines, 1):
        code = re.sub(r"//.*", "", l)
        s = code.strip()
        in_test = test_until is not None
        if s.startswith("#[test]") or s.startswith("#[cfg(test)]"):
            pending_test = True
        if re.search(r"\bfn \w+", code) or re.match(r"mod \w+ \{", s):
            if pending_test:
                test_until, pending_test, in_test = depth, False, True
            elif "fn " in code:
                fn_pending = True
        if s and not in_test and (body or (fn_pending and "{" in code)) and s not in ("{", "}", "})", "};", ");", ")"):
            want.append(i)
        for ch in code:
            if ch == "{":
                if fn_pending:
                    body.append(depth)
                    fn_pending = False
                depth += 1
            elif ch == "}":
                depth -= 1
                if body and body[-1] == depth:
                    body.pop()
                if test_until is not None and depth == test_until:
                    test_until = None
            elif ch == ";" and fn_pending:
                fn_pending = False
    m = [i for i in want if i not in cited.get(rel, set())]
    total += len(want)
    miss += len(m)
    if m:
        print(rel, "uncited:")
        for i in m:
            print("   %4d %s" % (i, lines[i - 1].rstrip()))
print(total, "lines of function bodies,", miss, "not cited by the model")
