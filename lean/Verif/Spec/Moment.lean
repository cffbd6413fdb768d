import Verif.Spec.Reach
import Verif.Spec.Host
/-!
# Specification: keys and the hostname of the moment
-/
namespace Ush.Spec

/-- `Term.NearAll` (Spec/Reach.lean) where every prompt shows the hostname of the moment. -/
def Term.NearAllH (E : Env) (host : Host) (A : App) (t : Term) : List UInt8 → Prop
  | [] => True
  | c :: cs => t.Near E c ∧ Term.NearAllH E host A (t.keyH E host A c) cs

end Ush.Spec
