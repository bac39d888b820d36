import Verif.Model.DE
import Verif.Model.Ieee

/-!
# The optimizer's scalar types

src/optimize/differential_evolution.rs:35-43 requires `f32: Into<T>` and `i8: Into<T>`; of the types of the standard
library `T` is `f32` or `f64`. `crossover_probability` is an `f32`.
-/

namespace Magnesia

/-- `i8: Into<T>` (src/optimize/differential_evolution.rs:43, 55) for floating point numbers: the conversion is exact for
every `i8` in `f32` and `f64`, and for 0 and 2, the only numbers converted, in every format. -/
instance {F : Fmt} : FromI8 (Ieee F) := ⟨fun z => if z = 0 then .zero false else .round z⟩

end Magnesia
