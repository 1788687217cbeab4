/- Specification of reading and writing through a stream. -/
import Verif.Lester.Png
namespace Verif.Lester
variable {S Req Resp E P Out : Type}

/-- What happened in one call of the callback, as cairo sees it. -/
structure Exchange (Req Resp : Type) where
  req : Req
  status : Nat
  buffer : Option Resp

/-- cairo makes these calls, is answered in this way, and then returns `out`. -/
inductive Talks : CCode Req Resp Out → List (Exchange Req Resp) → Out → Prop where
  | done (out) : Talks (.done out) [] out
  | call {req k status buffer rest out} (h : Talks (k status buffer) rest out) : Talks (.call req k) (⟨req, status, buffer⟩ :: rest) out

/-- The stream is used in this way, and then is in state `s'`. -/
inductive Used (st : Stream S Req Resp E P) : S → List (Req × Resp × Ending E P) → S → Prop where
  | nil (s) : Used st s [] s
  | cons {s req rest s'} (h : Used st (st.use s req).1 rest s') : Used st s ((req, (st.use s req).2) :: rest) s'

/-- The failures among uses of the stream. -/
def errorsOf : List (Req × Resp × Ending E P) → List E
  | [] => []
  | (_, _, .err e) :: rest => e :: errorsOf rest
  | _ :: rest => errorsOf rest

/-- The panics among uses of the stream. -/
def panicsOf : List (Req × Resp × Ending E P) → List P
  | [] => []
  | (_, _, .panic p) :: rest => p :: panicsOf rest
  | _ :: rest => panicsOf rest

/-- How cairo is told of a use of the stream. -/
def told (errorConst : Nat) (u : Req × Resp × Ending E P) : Exchange Req Resp :=
  ⟨u.1, match u.2.2 with | .ok => 0 | _ => errorConst, some u.2.1⟩

/-- cairo does not call the callback any more after it has returned an error. -/
inductive Stops : CCode Req Resp Out → Prop where
  | done (out) : Stops (.done out)
  | call {req k} (h : ∀ buffer, Stops (k 0 buffer)) (h' : ∀ status buffer, status ≠ 0 → ∃ out, k status buffer = .done out) :
    Stops (.call req k)

end Verif.Lester
