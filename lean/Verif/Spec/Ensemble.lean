import Verif.Model.Ensemble
/-!
# What members of an ensemble are expected to answer
-/
namespace MLTK.Spec
open MLTK.Ens
variable {D M X K : Type}

/-- The answer of a learner that is trained by itself on the dataset `d` with seed `s` and then asked. -/
def alone (k : Kind D M X) (s : Nat) (m : M) (d : D) (x : X) : Res Int := do
  let (m', d') ← k.fit s m d
  k.ans m' d' x

/-- The answers the members of `v` would give if each were trained by itself on `d`. -/
def asAlone (w : World D M X) (v : Voter K) (d : D) (x : X) : Res (List Int) :=
  v.members.mapM (fun i => do
    let c ← vget w.cells i
    alone c.kind v.seed c.model d x)

/-- Training such a learner does not change the dataset. -/
def Quiet (k : Kind D M X) : Prop := ∀ s m d m' d', k.fit s m d = .ok (m', d') → d' = d

/-- What such a learner answers after training does not depend on what it learnt before. -/
def Forgets (k : Kind D M X) : Prop := ∀ s m m' d x, alone k s m d x = alone k s m' d x

/-- All members of `v` are learners with property `P`. -/
def AllMembers (P : Kind D M X → Prop) (w : World D M X) (v : Voter K) : Prop :=
  ∀ i ∈ v.members, ∀ c, w.cells[i]? = some c → P c.kind

end MLTK.Spec
