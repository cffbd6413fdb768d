import Verif.Spec.Apps
import Verif.Spec.Host
/-!
# Specification: any application, and the hostname of the moment
-/
namespace Ush.Spec

/-- `Term.NearAppAll` (Spec/Apps.lean) where every prompt shows the hostname of the moment. -/
def Term.NearAppAllH (E : Env) (host : Host) (A : App) (t : Term) : List UInt8 → Prop
  | [] => True
  | c :: cs => t.NearApp E A c ∧ Term.NearAppAllH E host A (t.keyH E host A c) cs

/-- `Term.AppAll` where every prompt shows the hostname of the moment. -/
def Term.AppAllH (E : Env) (host : Host) (A : App) (t : Term) : List UInt8 → Prop
  | [] => True
  | c :: cs => t.AppOk E A c ∧ (t.NearApp E A c → Term.AppAllH E host A (t.keyH E host A c) cs)

/-- Effect of a call at the prompt: the prompt shown shows the hostname as it is after the call. -/
def Term.callH (E : Env) (host : Host) (t : Term) (c : Call) : Term := t.call (E.named (host (t.call E c).log)) c

def Term.itemH (E : Env) (host : Host) (A : App) (t : Term) : Item → Term
  | .key c => t.keyH E host A c
  | .call c => t.callH E host c

def Term.itemsH (E : Env) (host : Host) (A : App) (t : Term) : List Item → Term
  | [] => t
  | i :: is => Term.itemsH E host A (t.itemH E host A i) is

/-- `plays` (Spec/Terminal.lean) with the hostname of the moment. -/
def playsH (E : Env) (host : Host) (u : Ush) (v : Ush) : List Item → Prop
  | [] => u = v
  | .key c :: is => ∃ w, StepsH E host u [c] w [] ∧ w.state = .readChar ∧ playsH E host w v is
  | .call c :: is => ∃ w x, runApis E u c.apis = .ok w ∧ StepsH E host w [] x [] ∧ x.state = .readChar ∧ playsH E host x v is

def Term.NearItemsH (E : Env) (host : Host) (A : App) (t : Term) : List Item → Prop
  | [] => True
  | i :: is => t.NearItem E A i ∧ Term.NearItemsH E host A (t.itemH E host A i) is

def Term.AppItemsH (E : Env) (host : Host) (A : App) (t : Term) : List Item → Prop
  | [] => True
  | i :: is => t.AppItem E A i ∧ (t.NearItem E A i → Term.AppItemsH E host A (t.itemH E host A i) is)

end Ush.Spec
