import Verif.Lemmas.Point
import Verif.Lemmas.Readers
import Verif.Spec.PointAlias
namespace MLTK.PointM
open MLTK MLTK.Spec
open MLTK.Data (Res_bind_ok Res_bind_error Res_pure)
variable {K : Type} [Field K]

theorem denote_ok (x : List K) (n : Nat) (hx : x.length = n) : ∀ e : AExpr K, selfSubscriptsOK n e →
    ∃ b, e.denote x = .ok b ∧ (∀ i, valueAt b i = selfValueAt x e i) ∧ dims b = selfDims n e ∧ subscriptsOK b := by
  intro e
  induction e with
  | self => intro _; exact ⟨_, rfl, fun _ => rfl, by simp [dims, selfDims, hx], trivial⟩
  | elem k =>
    intro h
    have hk : k < x.length := by rw [hx]; exact h
    refine ⟨.sc x[k], by simp [AExpr.denote, List.getElem?_eq_getElem hk], fun i => ?_, rfl, trivial⟩
    simp [valueAt, selfValueAt, List.getD_eq_getElem?_getD, List.getElem?_eq_getElem hk]
  | pick ix => intro h; exact ⟨_, rfl, fun _ => rfl, rfl, fun j hj => by rw [hx]; exact h j hj⟩
  | other e => intro h; exact ⟨_, rfl, fun _ => rfl, rfl, h⟩
  | add a b iha ihb =>
    intro h
    obtain ⟨u, hu, hu1, hu2, hu3⟩ := iha h.1
    obtain ⟨v, hv, hv1, hv2, hv3⟩ := ihb h.2
    exact ⟨.add u v, by simp [AExpr.denote, hu, hv], fun i => by simp [valueAt, selfValueAt, hu1, hv1],
      by simp [dims, selfDims, hu2, hv2], hu3, hv3⟩
  | sub a b iha ihb =>
    intro h
    obtain ⟨u, hu, hu1, hu2, hu3⟩ := iha h.1
    obtain ⟨v, hv, hv1, hv2, hv3⟩ := ihb h.2
    exact ⟨.sub u v, by simp [AExpr.denote, hu, hv], fun i => by simp [valueAt, selfValueAt, hu1, hv1],
      by simp [dims, selfDims, hu2, hv2], hu3, hv3⟩
  | mul a b iha ihb =>
    intro h
    obtain ⟨u, hu, hu1, hu2, hu3⟩ := iha h.1
    obtain ⟨v, hv, hv1, hv2, hv3⟩ := ihb h.2
    exact ⟨.mul u v, by simp [AExpr.denote, hu, hv], fun i => by simp [valueAt, selfValueAt, hu1, hv1],
      by simp [dims, selfDims, hu2, hv2], hu3, hv3⟩
  | div a b iha ihb =>
    intro h
    obtain ⟨u, hu, hu1, hu2, hu3⟩ := iha h.1
    obtain ⟨v, hv, hv1, hv2, hv3⟩ := ihb h.2
    exact ⟨.div u v, by simp [AExpr.denote, hu, hv], fun i => by simp [valueAt, selfValueAt, hu1, hv1],
      by simp [dims, selfDims, hu2, hv2], hu3, hv3⟩
  | un f a ih =>
    intro h
    obtain ⟨u, hu, hu1, hu2, hu3⟩ := ih h
    exact ⟨.un f u, by simp [AExpr.denote, hu], fun i => by simp [valueAt, selfValueAt, hu1],
      by simp [dims, selfDims, hu2], hu3⟩

theorem getD_set_ne {x : List K} {i j : Nat} (h : i ≠ j) (v z : K) : (x.set i v).getD j z = x.getD j z := by
  simp [List.getD_eq_getElem?_getD, List.getElem?_set_ne h]

theorem drop_set_lt {x : List K} {i j : Nat} (h : i < j) (v : K) : (x.set i v).drop j = x.drop j := by
  rw [List.drop_set, if_pos h]

theorem sweep_ok (f : K → K → K) (e : AExpr K) (n : Nat) (hd' : ∀ m ∈ selfDims n e, m = n)
    (hs' : selfSubscriptsOK n e) : ∀ (k i : Nat) (x : List K),
    x.length = n → i + k = n →
    ∃ r, sweep f e k i x = .ok r ∧ r.length = n ∧ r.take i = x.take i ∧
      ∀ j, i ≤ j → j < n → r[j]? = some (f (x.getD j 0) (selfValueAt (r.take j ++ x.drop j) e j)) := by
  intro k
  induction k with
  | zero => intro i x hx hi; exact ⟨x, rfl, hx, rfl, fun j h1 h2 => by omega⟩
  | succ k ih =>
    intro i x hx hi
    have hil : i < x.length := by omega
    obtain ⟨b, hb, hv, hd, hs⟩ := denote_ok x n hx e hs'
    have hat : b.at? i = .ok (selfValueAt x e i) := by
      rw [at_ok n b (by rw [hd]; exact hd') hs i (by omega), hv]
    have hu : vget x i = .ok (x.getD i 0) := vget_getD hil 0
    obtain ⟨r, hr, hrl, hrt, hrj⟩ := ih (i + 1) (x.set i (f (x.getD i 0) (selfValueAt x e i)))
      (by simpa using hx) (by omega)
    have hri : r.take i = x.take i := by
      have := congrArg (List.take i) hrt
      simpa [List.take_take, List.take_set, List.set_eq_of_length_le] using this
    refine ⟨r, ?_, hrl, hri, ?_⟩
    · simp only [sweep, hb, Res_bind_ok, hat, hu, vset, if_pos hil, hr]
    · intro j h1 h2
      rcases Nat.eq_or_lt_of_le h1 with h | h
      · subst h
        rw [hri, List.take_append_drop]
        have := congrArg (fun l => l[i]?) hrt
        simpa [List.getElem?_take, List.getElem?_set, hil] using this
      · rw [hrj j h h2, getD_set_ne (by omega), drop_set_lt (by omega)]

theorem looksAhead_same (n : Nat) (x y : List K) (i : Nat) (hi : i < n) (hxy : ∀ j, i ≤ j → y.getD j 0 = x.getD j 0) :
    ∀ e : AExpr K, LooksAhead n e → selfValueAt y e i = selfValueAt x e i := by
  intro e
  induction e with
  | self => intro _; exact hxy i (Nat.le_refl _)
  | elem k => intro h; exact hxy k (by simp only [LooksAhead] at h; omega)
  | pick ix => intro h; exact hxy _ (h i hi)
  | other e => intro _; rfl
  | add a b iha ihb => intro h; simp [selfValueAt, iha h.1, ihb h.2]
  | sub a b iha ihb => intro h; simp [selfValueAt, iha h.1, ihb h.2]
  | mul a b iha ihb => intro h; simp [selfValueAt, iha h.1, ihb h.2]
  | div a b iha ihb => intro h; simp [selfValueAt, iha h.1, ihb h.2]
  | un f a ih => intro h; simp [selfValueAt, ih h]

theorem take_drop_getD (r x : List K) (h : r.length = x.length) (i j : Nat) (hij : i ≤ j) :
    (r.take i ++ x.drop i).getD j 0 = x.getD j 0 := by
  simp only [List.getD_eq_getElem?_getD]
  by_cases hi : i ≤ r.length
  · rw [List.getElem?_append_right (by simp [hij]), List.getElem?_drop]
    have : (r.take i).length = i := by simp [hi]
    rw [this]; congr 2; omega
  · rw [List.getElem?_eq_none (by simp; omega), List.getElem?_eq_none (by omega)]

theorem compoundInPlace_run (f : K → K → K) (x : List K) (e : AExpr K) (he : Sensible x.length e) :
    ∃ r, compoundInPlace f x e = .ok r ∧ r.length = x.length ∧
      ∀ j, j < x.length → r[j]? = some (f (x.getD j 0) (selfValueAt (r.take j ++ x.drop j) e j)) := by
  obtain ⟨b, hb, hv, hd, hs⟩ := denote_ok x _ rfl e he.2.2
  have hsz := size_ok x.length b (by rw [hd]; exact he.2.1)
  rw [if_neg (by rw [hd]; exact he.1)] at hsz
  obtain ⟨r, hr, hrl, _, hrj⟩ := sweep_ok f e x.length he.2.1 he.2.2 x.length 0 x rfl (by omega)
  refine ⟨r, ?_, hrl, fun j hj => hrj j (Nat.zero_le _) hj⟩
  simp [compoundInPlace, hb, hsz, hr]

/-! ## scalars -/

/-- the expression a scalar reference is -/
def SRef.expr : SRef K → AExpr K
  | .value c => .other (.sc c)
  | .elem k => .elem k

theorem scalarSweep_eq (f : K → K → K) (s : SRef K) : ∀ (k i : Nat) (x : List K),
    scalarSweep f s k i x = sweep f s.expr k i x := by
  intro k
  induction k with
  | zero => intro i x; rfl
  | succ k ih =>
    intro i x
    cases s with
    | value c => simp only [scalarSweep, sweep, SRef.read, SRef.expr, AExpr.denote, Expr.at?, Res_bind_ok, ih]
    | elem m =>
      simp only [scalarSweep, sweep, SRef.read, SRef.expr, AExpr.denote, ih]
      cases x[m]? <;> simp [Expr.at?]

theorem scalarInPlace_run (f : K → K → K) (x : List K) (s : SRef K) (hs : selfSubscriptsOK x.length s.expr) :
    ∃ r, scalarInPlace f x s = .ok r ∧ r.length = x.length ∧
      ∀ j, j < x.length → r[j]? = some (f (x.getD j 0) (selfValueAt (r.take j ++ x.drop j) s.expr j)) := by
  have hd : ∀ m ∈ selfDims x.length s.expr, m = x.length := by cases s <;> simp [SRef.expr, selfDims, dims]
  obtain ⟨r, hr, hrl, _, hrj⟩ := sweep_ok f s.expr x.length hd hs x.length 0 x rfl (by omega)
  refine ⟨r, ?_, hrl, fun j hj => hrj j (Nat.zero_le _) hj⟩
  rw [scalarInPlace, scalarSweep_eq, hr]
  cases s with
  | value c => rfl
  | elem k =>
    have hk : k < x.length := hs
    simp [SRef.read, List.getElem?_eq_getElem hk]

theorem copyVec_ok : ∀ (b : List K) (i : Nat) (x : List K), i + b.length ≤ x.length →
    copyVec b i x = .ok (x.take i ++ b ++ x.drop (i + b.length)) := by
  intro b
  induction b with
  | nil => intro i x _; simp [copyVec]
  | cons v vs ih =>
    intro i x h
    simp only [List.length_cons] at h
    have hi : i < x.length := by omega
    simp only [copyVec, vset, if_pos hi, Res_bind_ok]
    rw [ih (i + 1) _ (by simp; omega), drop_set_lt (by omega)]
    congr 1
    rw [List.take_set, List.take_succ_eq_append_getElem hi, List.set_append_right _ _ (by simp)]
    simp [Nat.min_eq_left (Nat.le_of_lt hi)]
    congr 1; omega

end MLTK.PointM
