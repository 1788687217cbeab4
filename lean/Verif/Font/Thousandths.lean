/- Model of how lengths of fonts become `f32` (fonts/mod.rs `to_ems`) and integers in PDF files (pdf/object.rs). -/
import Verif.Float.Single
namespace Verif.Font
open Verif.Float

/-- fonts/mod.rs 171-176, `to_ems`, with the `cast` of line 116. -/
def toEms (length : Int) (unitsPerEm : Nat) : Single := .div (.ofInt length) (.ofNat unitsPerEm)

/-- pdf/object.rs 100-109, `From<Length<f32, Em>> for Object`, of a length that `to_ems` gives. -/
def thousandths (length : Int) (unitsPerEm : Nat) : Int := Single.truncated32 (.mul (toEms length unitsPerEm) (.round 1000))

end Verif.Font
