import Mathlib.Algebra.Field.Rat
import Verif.Spec.KeptExpr
import Verif.Lemmas.Data
/-!
# C197: expressions kept in variables
-/
namespace MLTK.Props
open MLTK.Spec MLTK.Kept MLTK.PointM
open MLTK.Data (Res_bind_ok Res_bind_error Res_pure)

section
variable {K : Type}

private theorem okInv {α β : Type} {r : Res α} {f : α → Res β} {b : β} (h : (r >>= f) = .ok b) : ∃ a, r = .ok a ∧ f a = .ok b := by
  cases r with
  | error e => cases h
  | ok a => exact ⟨a, rfl, h⟩

/-- The scalar operand at address `q` is the one written `s`. -/
private def RepsS (vars : List Nat) (h : Heap K) (q : Nat) : STerm K → Prop
  | .var v => vars[v]? = some q
  | .lit c => h[q]? = some (some (.sc c))

/-- The object at address `a` is built as `t` says. -/
private inductive Reps (vars : List Nat) (h : Heap K) : Nat → Term K → Prop
  | var {v a} : vars[v]? = some a → Reps vars h a (.var v)
  | temp {x a} : h[a]? = some (some (.pt x)) → Reps vars h a (.temp x)
  | bin {op a p q s t} : h[a]? = some (some (.bin op (.rep p) (.rep q))) → p < a → q < a → Reps vars h p s → Reps vars h q t →
      Reps vars h a (.bin op s t)
  | binS {op a p q s t} : h[a]? = some (some (.bin op (.rep p) (.scal q))) → p < a → Reps vars h p t → RepsS vars h q s →
      Reps vars h a (.binS op t s)
  | sBin {op a p q s t} : h[a]? = some (some (.bin op (.scal p) (.rep q))) → q < a → RepsS vars h p s → Reps vars h q t →
      Reps vars h a (.sBin op s t)
  | un {f a p t} : h[a]? = some (some (.un f p)) → p < a → Reps vars h p t → Reps vars h a (.un f t)

/-- Neither literals nor points made in the expression. -/
private def Pure : Term K → Prop
  | .var _ => True
  | .temp _ => False
  | .bin _ s t => Pure s ∧ Pure t
  | .binS _ t s => Pure t ∧ IsSVar s
  | .sBin _ s t => IsSVar s ∧ Pure t
  | .un _ t => Pure t

/-- The object of a variable is what the variable stands for. -/
private def Stands (vars : List Nat) (h : Heap K) (a : Nat) : Binding K → Prop
  | .pt x => h[a]? = some (some (.pt x))
  | .sc c => h[a]? = some (some (.sc c))
  | .ex t => Reps vars h a t ∧ Pure t ∧ ¬ IsVar t

private structure Agree (env : List (Binding K)) (vars : List Nat) (h : Heap K) : Prop where
  len : vars.length = env.length
  bound : ∀ (v a : Nat), vars[v]? = some a → a < h.length
  inj : ∀ (v w a : Nat), vars[v]? = some a → vars[w]? = some a → v = w
  holds : ∀ (v : Nat) (b : Binding K), env[v]? = some b → ∃ a, vars[v]? = some a ∧ Stands vars h a b

private theorem get_append {α : Type} {l : List α} {i : Nat} {x : α} (r : List α) (h : l[i]? = some x) : (l ++ r)[i]? = some x := by
  rw [List.getElem?_append_left (List.getElem?_eq_some_iff.1 h).1, h]

private theorem RepsS.mono {vars : List Nat} {h : Heap K} {q : Nat} {s : STerm K} (hr : RepsS vars h q s) (v2 : List Nat) (e : Heap K) :
    RepsS (vars ++ v2) (h ++ e) q s := by
  cases s with
  | var v => exact get_append _ hr
  | lit c => exact get_append _ hr

private theorem Reps.mono {vars : List Nat} {h : Heap K} {a : Nat} {t : Term K} (hr : Reps vars h a t) (v2 : List Nat) (e : Heap K) :
    Reps (vars ++ v2) (h ++ e) a t := by
  induction hr with
  | var h1 => exact .var (get_append _ h1)
  | temp h1 => exact .temp (get_append _ h1)
  | bin h1 h2 h3 _ _ i1 i2 => exact .bin (get_append _ h1) h2 h3 i1 i2
  | binS h1 h2 _ h3 i1 => exact .binS (get_append _ h1) h2 i1 (h3.mono _ _)
  | sBin h1 h2 h3 _ i1 => exact .sBin (get_append _ h1) h2 (h3.mono _ _) i1
  | un h1 h2 _ i1 => exact .un (get_append _ h1) h2 i1

/-- Giving a point or scalar variable a new value changes no expression object. -/
private theorem Reps.set {vars : List Nat} {h : Heap K} {a : Nat} {t : Term K} (hr : Reps vars h a t) (hp : Pure t) {b : Nat} {c : Option (Cell K)}
    (hb : ∀ op p q, h[b]? ≠ some (some (.bin op p q))) (hu : ∀ f p, h[b]? ≠ some (some (.un f p))) : Reps vars (h.set b c) a t := by
  have keep : ∀ {i : Nat} {x : Option (Cell K)}, h[i]? = some x → h[b]? ≠ some x → (h.set b c)[i]? = some x := by
    intro i x h1 h2
    rw [List.getElem?_set_ne (by rintro rfl; exact h2 h1), h1]
  induction hr with
  | var h1 => exact .var h1
  | temp h1 => exact absurd hp id
  | bin h1 h2 h3 _ _ i1 i2 => exact .bin (keep h1 (hb _ _ _)) h2 h3 (i1 hp.1) (i2 hp.2)
  | @binS op a p q s t h1 h2 _ h3 i1 =>
    cases s with
    | var v => exact .binS (keep h1 (hb _ _ _)) h2 (i1 hp.1) h3
    | lit c => exact absurd hp.2 id
  | @sBin op a p q s t h1 h2 h3 _ i1 =>
    cases s with
    | var v => exact .sBin (keep h1 (hb _ _ _)) h2 h3 (i1 hp.2)
    | lit c => exact absurd hp.1 id
  | un h1 h2 _ i1 => exact .un (keep h1 (hu _ _)) h2 (i1 hp)

private theorem Agree.append {env : List (Binding K)} {vars : List Nat} {h : Heap K} (ha : Agree env vars h) (e : Heap K) : Agree env vars (h ++ e) where
  len := ha.len
  bound v a hv := by
    have := ha.bound v a hv
    rw [List.length_append]; omega
  inj := ha.inj
  holds v b hb := by
    obtain ⟨a, h1, h2⟩ := ha.holds v b hb
    refine ⟨a, h1, ?_⟩
    cases b with
    | pt x => exact get_append _ h2
    | sc c => exact get_append _ h2
    | ex t =>
      have h3 := h2.1.mono [] e
      rw [List.append_nil] at h3
      exact ⟨h3, h2.2⟩

/-- A new variable. -/
private theorem Agree.declare {env : List (Binding K)} {vars : List Nat} {h : Heap K} (ha : Agree env vars h) (e : Heap K) (c : Cell K) (b : Binding K)
    (hb : Stands (vars ++ [(h ++ e).length]) (h ++ List.replicate e.length none ++ [some c]) (h ++ e).length b) :
    Agree (env ++ [b]) (Kept.declare vars h.length (h ++ e) c).vars (Kept.declare vars h.length (h ++ e) c).heap := by
  have he : endStatement h.length (h ++ e) = h ++ List.replicate e.length none := by simp [endStatement]
  have hheap : (Kept.declare vars h.length (h ++ e) c).heap = h ++ List.replicate e.length none ++ [some c] := by
    show endStatement h.length (h ++ e) ++ [some c] = _
    rw [he]
  have hvars : (Kept.declare vars h.length (h ++ e) c).vars = vars ++ [(h ++ e).length] := rfl
  rw [hheap, hvars]
  have hl : (h ++ e).length = h.length + e.length := List.length_append
  constructor
  · simp [ha.len]
  · intro v a hv
    rw [List.length_append, List.length_append, List.length_replicate]
    by_cases hlt : v < vars.length
    · rw [List.getElem?_append_left hlt] at hv
      have := ha.bound v a hv
      simp only [List.length_singleton]; omega
    · rw [List.getElem?_append_right (by omega)] at hv
      have := List.mem_of_getElem? hv
      rw [List.mem_singleton] at this
      simp only [List.length_singleton]; omega
  · have key : ∀ v a, (vars ++ [(h ++ e).length])[v]? = some a → (vars[v]? = some a ∧ a < h.length) ∨ (v = vars.length ∧ a = h.length + e.length) := by
      intro v a hv
      by_cases hlt : v < vars.length
      · rw [List.getElem?_append_left hlt] at hv
        exact Or.inl ⟨hv, ha.bound v a hv⟩
      · rw [List.getElem?_append_right (by omega)] at hv
        have h1 := List.mem_of_getElem? hv
        rw [List.mem_singleton] at h1
        have h2 := (List.getElem?_eq_some_iff.1 hv).1
        rw [List.length_singleton] at h2
        exact Or.inr ⟨by omega, by omega⟩
    intro v w a hv hw
    rcases key v a hv with ⟨h1, h2⟩ | ⟨h1, h2⟩ <;> rcases key w a hw with ⟨h3, h4⟩ | ⟨h3, h4⟩
    · exact ha.inj v w a h1 h3
    · omega
    · omega
    · omega
  · intro v b' hb'
    by_cases hlt : v < env.length
    · rw [List.getElem?_append_left hlt] at hb'
      obtain ⟨a, h1, h2⟩ := ha.holds v b' hb'
      refine ⟨a, get_append _ h1, ?_⟩
      rw [List.append_assoc]
      cases b' with
      | pt x => exact get_append _ h2
      | sc c => exact get_append _ h2
      | ex t => exact ⟨h2.1.mono _ _, h2.2⟩
    · rw [List.getElem?_append_right (by omega)] at hb'
      have h1 := List.mem_of_getElem? hb'
      rw [List.mem_singleton] at h1
      have h2 := (List.getElem?_eq_some_iff.1 hb').1
      rw [List.length_singleton] at h2
      subst h1
      have h3 : v = vars.length := by rw [ha.len]; omega
      refine ⟨(h ++ e).length, by rw [h3]; simp, hb⟩

section
variable [Field K]

private theorem scalar_read {env : List (Binding K)} {vars : List Nat} {h : Heap K} (ha : Agree env vars h) {q : Nat} {s : STerm K} {c : K}
    (hr : RepsS vars h q s) (hv : scalarValue env s = some c) (n i : Nat) : hat h n (.scal q) i = .ok c := by
  have hc : h[q]? = some (some (.sc c)) := by
    cases s with
    | lit d => cases hv; exact hr
    | var v =>
      simp only [scalarValue] at hv
      split at hv
      · next d hd =>
        cases hv
        obtain ⟨a, h1, h2⟩ := ha.holds v _ hd
        rw [show vars[v]? = some q from hr] at h1
        cases h1
        exact h2
      · exact absurd hv (by simp)
  unfold hat
  cases n <;> simp [hc]

private theorem term_read {env : List (Binding K)} {vars : List Nat} {h : Heap K} (ha : Agree env vars h) {a : Nat} {t : Term K}
    (hr : Reps vars h a t) : ∀ {x : List K}, valueOf env t = some x → ∀ n, a < n → hsize h n (.rep a) = .ok x.length ∧
      ∀ i v, x[i]? = some v → hat h n (.rep a) i = .ok v := by
  have comb : ∀ m : Nat, Expr.combineSize m m = .ok m ∧ Expr.combineSize m 0 = .ok m ∧ Expr.combineSize 0 m = .ok m := by
    intro m
    refine ⟨?_, ?_, ?_⟩ <;> by_cases h0 : m = 0 <;> simp [Expr.combineSize, h0]
  induction hr with
  | @var v a h1 =>
    intro x hx n hn
    simp only [valueOf] at hx
    split at hx
    · next y hy =>
      cases hx
      obtain ⟨a', h2, h3⟩ := ha.holds v _ hy
      rw [h1] at h2
      cases h2
      have h3' : h[a]? = some (some (.pt x)) := h3
      obtain ⟨n, rfl⟩ : ∃ m, n = m + 1 := ⟨n - 1, by omega⟩
      refine ⟨by simp [hsize, h3'], ?_⟩
      intro i v hv
      simp only [hat, h3']
      exact vget_eq_ok.2 hv
    · exact absurd hx (by simp)
  | @temp y a h1 =>
    intro x hx n hn
    cases hx
    obtain ⟨n, rfl⟩ : ∃ m, n = m + 1 := ⟨n - 1, by omega⟩
    refine ⟨by simp [hsize, h1], ?_⟩
    intro i v hv
    simp only [hat, h1]
    exact vget_eq_ok.2 hv
  | @bin op a p q s t h1 h2 h3 _ _ i1 i2 =>
    intro x hx n hn
    simp only [valueOf, Option.bind_eq_bind, Option.bind_eq_some_iff] at hx
    obtain ⟨y, hy, z, hz, hx⟩ := hx
    unfold pairwise at hx
    split at hx
    · next hl =>
      cases hx
      obtain ⟨n, rfl⟩ : ∃ m, n = m + 1 := ⟨n - 1, by omega⟩
      obtain ⟨a1, b1⟩ := i1 hy n (by omega)
      obtain ⟨a2, b2⟩ := i2 hz n (by omega)
      refine ⟨?_, ?_⟩
      · simp only [hsize, h1, a1, a2, Res_bind_ok, hl, (comb _).1, List.length_zipWith, Nat.min_self]
      · intro i v hv
        rw [List.getElem?_zipWith] at hv
        split at hv
        · next u w hu hw =>
          cases hv
          simp only [hat, h1, b1 i u hu, b2 i w hw, Res_bind_ok]
          cases op <;> rfl
        · exact absurd hv (by simp)
    · exact absurd hx (by simp)
  | @binS op a p q s t h1 h2 _ h3 i1 =>
    intro x hx n hn
    simp only [valueOf, Option.bind_eq_bind, Option.bind_eq_some_iff] at hx
    obtain ⟨y, hy, c, hc, hx⟩ := hx
    cases hx
    obtain ⟨n, rfl⟩ : ∃ m, n = m + 1 := ⟨n - 1, by omega⟩
    obtain ⟨a1, b1⟩ := i1 hy n (by omega)
    have hz : hsize h n (.scal q) = .ok 0 := by cases n <;> rfl
    refine ⟨?_, ?_⟩
    · simp only [hsize, h1, a1, hz, Res_bind_ok, (comb _).2.1, List.length_map]
    · intro i v hv
      rw [List.getElem?_map, Option.map_eq_some_iff] at hv
      obtain ⟨u, hu, rfl⟩ := hv
      simp only [hat, h1, b1 i u hu, scalar_read ha h3 hc, Res_bind_ok]
      cases op <;> rfl
  | @sBin op a p q s t h1 h2 h3 _ i1 =>
    intro x hx n hn
    simp only [valueOf, Option.bind_eq_bind, Option.bind_eq_some_iff] at hx
    obtain ⟨c, hc, y, hy, hx⟩ := hx
    cases hx
    obtain ⟨n, rfl⟩ : ∃ m, n = m + 1 := ⟨n - 1, by omega⟩
    obtain ⟨a1, b1⟩ := i1 hy n (by omega)
    have hz : hsize h n (.scal p) = .ok 0 := by cases n <;> rfl
    refine ⟨?_, ?_⟩
    · simp only [hsize, h1, a1, hz, Res_bind_ok, (comb _).2.2, List.length_map]
    · intro i v hv
      rw [List.getElem?_map, Option.map_eq_some_iff] at hv
      obtain ⟨u, hu, rfl⟩ := hv
      simp only [hat, h1, b1 i u hu, scalar_read ha h3 hc, Res_bind_ok]
      cases op <;> rfl
  | @un f a p t h1 h2 _ i1 =>
    intro x hx n hn
    simp only [valueOf, Option.bind_eq_bind, Option.bind_eq_some_iff] at hx
    obtain ⟨y, hy, hx⟩ := hx
    cases hx
    obtain ⟨n, rfl⟩ : ∃ m, n = m + 1 := ⟨n - 1, by omega⟩
    obtain ⟨a1, b1⟩ := i1 hy n (by omega)
    refine ⟨?_, ?_⟩
    · simp only [hsize, h1, a1, List.length_map]
    · intro i v hv
      rw [List.getElem?_map, Option.map_eq_some_iff] at hv
      obtain ⟨u, hu, rfl⟩ := hv
      simp only [hat, h1, b1 i u hu, Res_bind_ok]
      rfl

private theorem copy_read {h : Heap K} {a : Nat} {x : List K} (hx : ∀ i v, x[i]? = some v → hat h (h.length + 1) (.rep a) i = .ok v) :
    ∀ n i, i + n = x.length → hcopy h a n i = .ok (x.drop i)
  | 0, i, hi => by rw [List.drop_eq_nil_of_le (by omega)]; rfl
  | n + 1, i, hi => by
    have hlt : i < x.length := by omega
    rw [hcopy, hx i x[i] (List.getElem?_eq_getElem hlt), Res_bind_ok, copy_read hx n (i + 1) (by omega), Res_bind_ok,
      List.drop_eq_getElem_cons hlt]
    rfl

private theorem construct_read {env : List (Binding K)} {vars : List Nat} {h : Heap K} (ha : Agree env vars h) {a : Nat} {t : Term K}
    (hr : Reps vars h a t) (hlt : a < h.length) {x : List K} (hx : valueOf env t = some x) : hconstruct h a = .ok x := by
  obtain ⟨h1, h2⟩ := term_read ha hr hx (h.length + 1) (by omega)
  rw [hconstruct, h1, Res_bind_ok, copy_read h2 _ 0 (by omega)]
  rfl
end

private theorem get_var {env : List (Binding K)} {vars : List Nat} {h : Heap K} (ha : Agree env vars h) {v : Nat} (hv : v < env.length) :
    ∃ a, vars[v]? = some a ∧ vget vars v = .ok a ∧ a < h.length ∧ Reps vars h a (unfoldVars env (.var v)) := by
  have hv' : v < vars.length := by rw [ha.len]; exact hv
  have h1 : vars[v]? = some vars[v] := List.getElem?_eq_getElem hv'
  refine ⟨vars[v], h1, vget_eq_ok.2 h1, ha.bound v _ h1, ?_⟩
  simp only [unfoldVars]
  split
  · next t ht =>
    obtain ⟨a, h2, h3⟩ := ha.holds v _ ht
    rw [h1] at h2
    cases h2
    exact h3.1
  · exact .var h1

private theorem buildS_ok {env : List (Binding K)} {vars : List Nat} {h : Heap K} (ha : Agree env vars h) (s : STerm K)
    (hs : (match s with | .var v => decide (v < env.length) | .lit _ => true) = true) :
    ∃ e q, buildS vars h s = .ok (h ++ e, q) ∧ RepsS vars (h ++ e) q s := by
  cases s with
  | var v =>
    obtain ⟨a, h1, h2, _⟩ := get_var ha (of_decide_eq_true hs)
    exact ⟨[], a, by simp only [buildS, h2, Res_bind_ok, List.append_nil]; rfl, h1⟩
  | lit c => exact ⟨[some (.sc c)], h.length, rfl, by simp [RepsS]⟩

private theorem build_ok {env : List (Binding K)} {vars : List Nat} (t : Term K) : ∀ {h : Heap K}, Agree env vars h → inScope env.length t = true →
    ∃ e a, build vars h t = .ok (h ++ e, a) ∧ a < (h ++ e).length ∧ Reps vars (h ++ e) a (unfoldVars env t) := by
  have mono : ∀ {h : Heap K} {a : Nat} {t : Term K}, Reps vars h a t → ∀ e, Reps vars (h ++ e) a t := by
    intro h a t hr e
    have := hr.mono [] e
    rwa [List.append_nil] at this
  have monoS : ∀ {h : Heap K} {a : Nat} {t : STerm K}, RepsS vars h a t → ∀ e, RepsS vars (h ++ e) a t := by
    intro h a t hr e
    have := hr.mono [] e
    rwa [List.append_nil] at this
  induction t with
  | var v =>
    intro h ha hs
    obtain ⟨a, h1, h2, h3, h4⟩ := get_var ha (of_decide_eq_true hs)
    exact ⟨[], a, by simp only [build, h2, Res_bind_ok, List.append_nil]; rfl, by simpa using h3, by rw [List.append_nil]; exact h4⟩
  | temp x =>
    intro h ha _
    exact ⟨[some (.pt x)], h.length, rfl, by simp, .temp (by simp)⟩
  | bin op s t i1 i2 =>
    intro h ha hs
    simp only [inScope, Bool.and_eq_true] at hs
    obtain ⟨e1, p, b1, l1, r1⟩ := i1 ha hs.1
    obtain ⟨e2, q, b2, l2, r2⟩ := i2 (ha.append e1) hs.2
    refine ⟨e1 ++ e2 ++ [some (.bin op (.rep p) (.rep q))], (h ++ e1 ++ e2).length, ?_, ?_, ?_⟩
    · simp only [build, b1, b2, Res_bind_ok]
      simp [alloc, Res_pure]
    · simp
    · simp only [unfoldVars]
      have hl := @List.length_append _ (h ++ e1) e2
      refine .bin (p := p) (q := q) ?_ (by omega) l2 ?_ ?_
      · rw [← List.append_assoc, ← List.append_assoc]; simp
      · have := mono r1 (e2 ++ [some (.bin op (.rep p) (.rep q))])
        simpa using this
      · have := mono r2 [some (.bin op (.rep p) (.rep q))]
        simpa using this
  | binS op t s i1 =>
    intro h ha hs
    simp only [inScope, Bool.and_eq_true] at hs
    obtain ⟨e1, p, b1, l1, r1⟩ := i1 ha hs.1
    obtain ⟨e2, q, b2, r2⟩ := buildS_ok (ha.append e1) s hs.2
    refine ⟨e1 ++ e2 ++ [some (.bin op (.rep p) (.scal q))], (h ++ e1 ++ e2).length, ?_, ?_, ?_⟩
    · simp only [build, b1, b2, Res_bind_ok]
      simp [alloc, Res_pure]
    · simp
    · simp only [unfoldVars]
      have hl := @List.length_append _ (h ++ e1) e2
      refine .binS (p := p) (q := q) ?_ (by omega) ?_ ?_
      · rw [← List.append_assoc, ← List.append_assoc]; simp
      · have := mono r1 (e2 ++ [some (.bin op (.rep p) (.scal q))])
        simpa using this
      · have := monoS r2 [some (.bin op (.rep p) (.scal q))]
        simpa using this
  | sBin op s t i1 =>
    intro h ha hs
    simp only [inScope, Bool.and_eq_true] at hs
    obtain ⟨e1, p, b1, r1⟩ := buildS_ok ha s hs.2
    obtain ⟨e2, q, b2, l2, r2⟩ := i1 (ha.append e1) hs.1
    refine ⟨e1 ++ e2 ++ [some (.bin op (.scal p) (.rep q))], (h ++ e1 ++ e2).length, ?_, ?_, ?_⟩
    · simp only [build, b1, b2, Res_bind_ok]
      simp [alloc, Res_pure]
    · simp
    · simp only [unfoldVars]
      refine .sBin (p := p) (q := q) ?_ l2 ?_ ?_
      · rw [← List.append_assoc, ← List.append_assoc]; simp
      · have := monoS r1 (e2 ++ [some (.bin op (.scal p) (.rep q))])
        simpa using this
      · have := mono r2 [some (.bin op (.scal p) (.rep q))]
        simpa using this
  | un f t i1 =>
    intro h ha hs
    simp only [inScope] at hs
    obtain ⟨e1, p, b1, l1, r1⟩ := i1 ha hs
    refine ⟨e1 ++ [some (.un f p)], (h ++ e1).length, ?_, ?_, ?_⟩
    · simp only [build, b1, Res_bind_ok]
      simp [alloc, Res_pure]
    · simp
    · simp only [unfoldVars]
      refine .un (p := p) ?_ l1 ?_
      · rw [← List.append_assoc]; simp
      · have := mono r1 [some (.un f p)]
        simpa using this

/-- Expressions with a value mention only declared variables. -/
private theorem scope_of_value [Field K] {env : List (Binding K)} (t : Term K) : ∀ {x : List K}, valueOf env (unfoldVars env t) = some x →
    inScope env.length t = true := by
  have hS : ∀ {s : STerm K} {c : K}, scalarValue env s = some c → (match s with | .var v => decide (v < env.length) | .lit _ => true) = true := by
    intro s c hc
    cases s with
    | lit c => rfl
    | var v =>
      simp only [scalarValue] at hc
      split at hc
      · next d hd => exact decide_eq_true (List.getElem?_eq_some_iff.1 hd).1
      · exact absurd hc (by simp)
  induction t with
  | var v =>
    intro x hx
    simp only [inScope, decide_eq_true_eq]
    by_contra hv
    have hn : env[v]? = none := List.getElem?_eq_none (by omega)
    simp [unfoldVars, valueOf, hn] at hx
  | temp x => intro _ _; rfl
  | bin op s t i1 i2 =>
    intro x hx
    simp only [unfoldVars, valueOf, Option.bind_eq_bind, Option.bind_eq_some_iff] at hx
    obtain ⟨y, hy, z, hz, _⟩ := hx
    simp only [inScope, i1 hy, i2 hz, Bool.and_self]
  | binS op t s i1 =>
    intro x hx
    simp only [unfoldVars, valueOf, Option.bind_eq_bind, Option.bind_eq_some_iff] at hx
    obtain ⟨y, hy, z, hz, _⟩ := hx
    simp only [inScope, i1 hy, Bool.true_and]
    exact hS hz
  | sBin op s t i1 =>
    intro x hx
    simp only [unfoldVars, valueOf, Option.bind_eq_bind, Option.bind_eq_some_iff] at hx
    obtain ⟨z, hz, y, hy, _⟩ := hx
    simp only [inScope, i1 hy, Bool.true_and]
    exact hS hz
  | un f t i1 =>
    intro x hx
    simp only [unfoldVars, valueOf, Option.bind_eq_bind, Option.bind_eq_some_iff] at hx
    obtain ⟨y, hy, _⟩ := hx
    exact i1 hy

private theorem Reps.copy {vars : List Nat} {h : Heap K} {a : Nat} {t : Term K} (hr : Reps vars h a t) (hp : Pure t) (hn : ¬ IsVar t) :
    ∃ c, h[a]? = some (some c) ∧ ∀ v2 e a', a ≤ a' → (h ++ e)[a']? = some (some c) → Reps (vars ++ v2) (h ++ e) a' t := by
  cases hr with
  | var h1 => exact absurd trivial hn
  | temp h1 => exact absurd hp id
  | bin h1 h2 h3 r1 r2 =>
    exact ⟨_, h1, fun v2 e a' ha' hc => .bin hc (by omega) (by omega) (r1.mono _ _) (r2.mono _ _)⟩
  | binS h1 h2 r1 r2 =>
    exact ⟨_, h1, fun v2 e a' ha' hc => .binS hc (by omega) (r1.mono _ _) (r2.mono _ _)⟩
  | sBin h1 h2 r1 r2 =>
    exact ⟨_, h1, fun v2 e a' ha' hc => .sBin hc (by omega) (r1.mono _ _) (r2.mono _ _)⟩
  | un h1 h2 r1 =>
    exact ⟨_, h1, fun v2 e a' ha' hc => .un hc (by omega) (r1.mono _ _)⟩

private theorem pure_var {env : List (Binding K)} {vars : List Nat} {h : Heap K} (ha : Agree env vars h) (v : Nat) : Pure (unfoldVars env (.var v)) := by
  simp only [unfoldVars]
  split
  · next t ht =>
    obtain ⟨a, _, h3⟩ := ha.holds v _ ht
    exact h3.2.1
  · trivial

/-- One operation on variables is kept right. -/
private theorem keep_one {env : List (Binding K)} {vars : List Nat} {h : Heap K} (ha : Agree env vars h) (b : Binding K) (c : Cell K)
    (hb : ∀ v2 e a', h.length ≤ a' → (h ++ e)[a']? = some (some c) → Stands (vars ++ v2) (h ++ e) a' b) :
    Agree (env ++ [b]) (Kept.declare vars h.length (h ++ [some c]) c).vars (Kept.declare vars h.length (h ++ [some c]) c).heap := by
  refine ha.declare _ _ _ ?_
  rw [List.append_assoc]
  refine hb _ _ _ (by simp) ?_
  simp

private theorem keep_var {env : List (Binding K)} {vars : List Nat} {h : Heap K} (ha : Agree env vars h) (b : Binding K) (c : Cell K)
    (hb : ∀ v2 e a', h.length ≤ a' → (h ++ e)[a']? = some (some c) → Stands (vars ++ v2) (h ++ e) a' b) :
    Agree (env ++ [b]) (Kept.declare vars h.length h c).vars (Kept.declare vars h.length h c).heap := by
  have := ha.declare [] c b
  rw [List.append_nil] at this
  refine this ?_
  rw [List.append_assoc]
  refine hb _ _ _ (by simp) ?_
  simp

section
variable [Field K]

private theorem step_ok {env env' : List (Binding K)} {vars : List Nat} {h : Heap K} (ha : Agree env vars h) (st : Stmt K)
    (hm : means env st = some env') (hk : ∀ t, st = .keep t → OneOperation t) :
    ∃ s', step ⟨h, vars⟩ st = .ok s' ∧ Agree env' s'.vars s'.heap := by
  cases st with
  | point x =>
    cases hm
    exact ⟨_, rfl, keep_var ha _ _ (fun v2 e a' _ hc => hc)⟩
  | scalar c =>
    cases hm
    exact ⟨_, rfl, keep_var ha _ _ (fun v2 e a' _ hc => hc)⟩
  | construct t =>
    simp only [means, Option.bind_eq_bind, Option.bind_eq_some_iff] at hm
    obtain ⟨x, hx, hm⟩ := hm
    cases hm
    obtain ⟨e, a, h1, h2, h3⟩ := build_ok t ha (scope_of_value t hx)
    refine ⟨Kept.declare vars h.length (h ++ e) (.pt x), ?_, ha.declare e _ _ ?_⟩
    · simp only [step, h1, Res_bind_ok, construct_read (ha.append e) h3 h2 hx]
      rfl
    · show (h ++ List.replicate e.length none ++ [some (Cell.pt x)])[(h ++ e).length]? = _
      rw [List.getElem?_append_right (by simp)]
      simp
  | setPoint v x =>
    simp only [means] at hm
    split at hm
    · next y hy =>
      cases hm
      obtain ⟨a, h1, h2⟩ := ha.holds v _ hy
      have h2' : h[a]? = some (some (.pt y)) := h2
      refine ⟨⟨h.set a (some (.pt x)), vars⟩, by simp only [step, vget_eq_ok.2 h1, Res_bind_ok, h2'], ⟨by simp [ha.len], ?_, ha.inj, ?_⟩⟩
      · intro w b hw
        rw [List.length_set]; exact ha.bound w b hw
      · intro w b hb
        by_cases hwv : w = v
        · subst hwv
          have hwl := (List.getElem?_eq_some_iff.1 hy).1
          rw [List.getElem?_set_self hwl] at hb
          cases hb
          refine ⟨a, h1, ?_⟩
          show (h.set a _)[a]? = _
          rw [List.getElem?_set_self (ha.bound w a h1)]
        · rw [List.getElem?_set_ne (Ne.symm hwv)] at hb
          obtain ⟨a', h3, h4⟩ := ha.holds w b hb
          have hne : a ≠ a' := by rintro rfl; exact hwv (ha.inj w v a h3 h1)
          refine ⟨a', h3, ?_⟩
          cases b with
          | pt z => show (h.set a _)[a']? = _; rw [List.getElem?_set_ne hne]; exact h4
          | sc z => show (h.set a _)[a']? = _; rw [List.getElem?_set_ne hne]; exact h4
          | ex t => exact ⟨h4.1.set h4.2.1 (by rw [h2']; simp) (by rw [h2']; simp), h4.2⟩
    · exact absurd hm (by simp)
  | setScalar v x =>
    simp only [means] at hm
    split at hm
    · next y hy =>
      cases hm
      obtain ⟨a, h1, h2⟩ := ha.holds v _ hy
      have h2' : h[a]? = some (some (.sc y)) := h2
      refine ⟨⟨h.set a (some (.sc x)), vars⟩, by simp only [step, vget_eq_ok.2 h1, Res_bind_ok, h2'], ⟨by simp [ha.len], ?_, ha.inj, ?_⟩⟩
      · intro w b hw
        rw [List.length_set]; exact ha.bound w b hw
      · intro w b hb
        by_cases hwv : w = v
        · subst hwv
          have hwl := (List.getElem?_eq_some_iff.1 hy).1
          rw [List.getElem?_set_self hwl] at hb
          cases hb
          refine ⟨a, h1, ?_⟩
          show (h.set a _)[a]? = _
          rw [List.getElem?_set_self (ha.bound w a h1)]
        · rw [List.getElem?_set_ne (Ne.symm hwv)] at hb
          obtain ⟨a', h3, h4⟩ := ha.holds w b hb
          have hne : a ≠ a' := by rintro rfl; exact hwv (ha.inj w v a h3 h1)
          refine ⟨a', h3, ?_⟩
          cases b with
          | pt z => show (h.set a _)[a']? = _; rw [List.getElem?_set_ne hne]; exact h4
          | sc z => show (h.set a _)[a']? = _; rw [List.getElem?_set_ne hne]; exact h4
          | ex t => exact ⟨h4.1.set h4.2.1 (by rw [h2']; simp) (by rw [h2']; simp), h4.2⟩
    · exact absurd hm (by simp)
  | keep t =>
    have hone := hk t rfl
    cases t with
    | var v =>
      simp only [means] at hm
      have hvlt : v < env.length := by
        by_contra hcon
        rw [List.getElem?_eq_none (by omega)] at hm
        exact absurd hm (by simp)
      obtain ⟨a, h1, h2, h3, _⟩ := get_var ha hvlt
      split at hm
      · next x hx =>
        cases hm
        obtain ⟨a', h4, h5⟩ := ha.holds v _ hx
        rw [h1] at h4; cases h4
        refine ⟨Kept.declare vars h.length h (.pt x), ?_, keep_var ha _ _ (fun v2 e a' _ hc => hc)⟩
        simp only [step, build, h2, Res_bind_ok, Res_pure, show h[a]? = some (some (Cell.pt x)) from h5]
      · next t ht =>
        cases hm
        obtain ⟨a', h4, h5⟩ := ha.holds v _ ht
        rw [h1] at h4; cases h4
        obtain ⟨c, hc, hcopy⟩ := h5.1.copy h5.2.1 h5.2.2
        refine ⟨Kept.declare vars h.length h c, ?_, keep_var ha _ _ (fun v2 e a' ha' hc' => ⟨hcopy v2 e a' (by omega) hc', h5.2⟩)⟩
        simp only [step, build, h2, Res_bind_ok, Res_pure, hc]
      · exact absurd hm (by simp)
    | temp x =>
      cases hm
      refine ⟨Kept.declare vars h.length (h ++ [some (.pt x)]) (.pt x), ?_, keep_one ha (.pt x) _ (fun v2 e a' _ hc => hc)⟩
      simp [step, build, alloc, Res_bind_ok]
    | bin op s t =>
      simp only [means] at hm
      split at hm
      · next hs =>
        cases hm
        simp only [inScope, Bool.and_eq_true] at hs
        obtain ⟨hs1, hs2⟩ := hone
        cases s <;> try exact absurd hs1 id
        cases t <;> try exact absurd hs2 id
        next v w =>
        obtain ⟨a, h1, h2, h3, h4⟩ := get_var ha (of_decide_eq_true hs.1)
        obtain ⟨b, g1, g2, g3, g4⟩ := get_var ha (of_decide_eq_true hs.2)
        refine ⟨Kept.declare vars h.length (h ++ [some (.bin op (.rep a) (.rep b))]) (.bin op (.rep a) (.rep b)), ?_, keep_one ha _ _ ?_⟩
        · simp [step, build, alloc, Res_bind_ok, h2, g2, Res_pure]
        · intro v2 e a' ha' hc
          exact ⟨.bin hc (by omega) (by omega) (h4.mono _ _) (g4.mono _ _), ⟨pure_var ha v, pure_var ha w⟩, id⟩
      · exact absurd hm (by simp)
    | binS op t s =>
      simp only [means] at hm
      split at hm
      · next hs =>
        cases hm
        simp only [inScope, Bool.and_eq_true] at hs
        obtain ⟨hs1, hs2⟩ := hone
        cases s <;> try exact absurd hs2 id
        cases t <;> try exact absurd hs1 id
        next w v =>
        obtain ⟨a, h1, h2, h3, h4⟩ := get_var ha (of_decide_eq_true hs.1)
        obtain ⟨b, g1, g2, g3, g4⟩ := get_var ha (of_decide_eq_true hs.2)
        refine ⟨Kept.declare vars h.length (h ++ [some (.bin op (.rep a) (.scal b))]) (.bin op (.rep a) (.scal b)), ?_, keep_one ha _ _ ?_⟩
        · simp [step, build, buildS, alloc, Res_bind_ok, h2, g2, Res_pure]
        · intro v2 e a' ha' hc
          exact ⟨.binS hc (by omega) (h4.mono _ _) (get_append _ g1), ⟨pure_var ha _, trivial⟩, id⟩
      · exact absurd hm (by simp)
    | sBin op s t =>
      simp only [means] at hm
      split at hm
      · next hs =>
        cases hm
        simp only [inScope, Bool.and_eq_true] at hs
        obtain ⟨hs1, hs2⟩ := hone
        cases s <;> try exact absurd hs2 id
        cases t <;> try exact absurd hs1 id
        next w v =>
        obtain ⟨a, h1, h2, h3, h4⟩ := get_var ha (of_decide_eq_true hs.1)
        obtain ⟨b, g1, g2, g3, g4⟩ := get_var ha (of_decide_eq_true hs.2)
        refine ⟨Kept.declare vars h.length (h ++ [some (.bin op (.scal b) (.rep a))]) (.bin op (.scal b) (.rep a)), ?_, keep_one ha _ _ ?_⟩
        · simp [step, build, buildS, alloc, Res_bind_ok, h2, g2, Res_pure]
        · intro v2 e a' ha' hc
          exact ⟨.sBin hc (by omega) (get_append _ g1) (h4.mono _ _), ⟨trivial, pure_var ha _⟩, id⟩
      · exact absurd hm (by simp)
    | un f t =>
      simp only [means] at hm
      split at hm
      · next hs =>
        cases hm
        simp only [inScope] at hs
        cases t <;> try exact absurd hone id
        next v =>
        obtain ⟨a, h1, h2, h3, h4⟩ := get_var ha (of_decide_eq_true hs)
        refine ⟨Kept.declare vars h.length (h ++ [some (.un f a)]) (.un f a), ?_, keep_one ha _ _ ?_⟩
        · simp [step, build, alloc, Res_bind_ok, h2, Res_pure]
        · intro v2 e a' ha' hc
          exact ⟨.un hc (by omega) (h4.mono _ _), pure_var ha _, id⟩
      · exact absurd hm (by simp)

private theorem run_ok : ∀ (p : List (Stmt K)) (env env' : List (Binding K)) (s : State K), Agree env s.vars s.heap → KeepsOneOperation p →
    p.foldlM means env = some env' → ∃ s', p.foldlM step s = .ok s' ∧ Agree env' s'.vars s'.heap
  | [], env, env', s, ha, _, hm => by
    cases hm
    exact ⟨s, rfl, ha⟩
  | st :: p, env, env', s, ha, hk, hm => by
    rw [List.foldlM_cons, Option.bind_eq_bind, Option.bind_eq_some_iff] at hm
    obtain ⟨env1, h1, hm⟩ := hm
    obtain ⟨s1, h2, ha1⟩ := step_ok ha st h1 (fun t ht => hk t (by rw [ht]; exact List.mem_cons_self))
    obtain ⟨s', h3, ha'⟩ := run_ok p env1 env' s1 ha1 (fun t ht => hk t (List.mem_cons_of_mem _ ht)) hm
    exact ⟨s', by rw [List.foldlM_cons, h2, Res_bind_ok, h3], ha'⟩

/-- **C197 (partial)** In every program that keeps only expressions of one operation on variables (or copies of variables), and that makes sense when an
expression in a variable stands for itself: every point constructed from expressions has the component-wise value they have, with the values the points and scalars
have at that time.
Missing: kept expressions with operands that are not variables, see the theorems below. -/
theorem C197_one_operation_partial (p : List (Stmt K)) (hk : KeepsOneOperation p) (env : List (Binding K)) (hm : meaning p = some env) :
    ∃ s, run p = .ok s ∧ ∀ v x, env[v]? = some (.pt x) → pointOf s v = some x := by
  obtain ⟨s, h1, ha⟩ := run_ok p [] env ⟨[], []⟩ ⟨rfl, fun v a h => absurd h (by simp), fun v w a h => absurd h (by simp),
    fun v b h => absurd h (by simp)⟩ hk hm
  refine ⟨s, h1, ?_⟩
  intro v x hx
  obtain ⟨a, h2, h3⟩ := ha.holds v _ hx
  simp only [pointOf, h2, show s.heap[a]? = some (some (Cell.pt x)) from h3]

/-- `a = {1,2}; b = {10,20}; auto e = a + b; auto g = e * b; a = {5,6}; Point r = g - a;` -/
private def exKept : List (Stmt ℚ) :=
  [.point [1, 2], .point [10, 20], .keep (.bin .add (.var 0) (.var 1)), .keep (.bin .mul (.var 2) (.var 1)), .setPoint 0 [5, 6],
    .construct (.bin .sub (.var 3) (.var 0))]

example : KeepsOneOperation exKept := by
  intro t ht
  simp only [exKept, List.mem_cons, List.not_mem_nil, reduceCtorEq, false_or, or_false, Stmt.keep.injEq] at ht
  rcases ht with rfl | rfl <;> exact ⟨trivial, trivial⟩

example : (run exKept).toOption.bind (fun s => pointOf s 4) = some [145, 514] := by decide +kernel

example : (meaning exKept).isSome = true := by decide +kernel

/-! ### Operands that are not variables -/

omit [Field K] in
private theorem buildS_ext {vars : List Nat} {h h' : Heap K} {a : Nat} (s : STerm K) (hb : buildS vars h s = .ok (h', a)) : ∃ e, h' = h ++ e := by
  cases s with
  | var v =>
    obtain ⟨b, _, hb⟩ := okInv hb
    cases hb
    exact ⟨[], by simp⟩
  | lit c => cases hb; exact ⟨_, rfl⟩

omit [Field K] in
private theorem build_ext {vars : List Nat} (t : Term K) : ∀ {h h' : Heap K} {a : Nat}, build vars h t = .ok (h', a) →
    ∃ e, h' = h ++ e ∧ (¬ IsVar t → h.length ≤ a ∧ a < h'.length) := by
  induction t with
  | var v =>
    intro h h' a hb
    obtain ⟨b, _, hb⟩ := okInv hb
    cases hb
    exact ⟨[], by simp, fun hn => absurd trivial hn⟩
  | temp x =>
    intro h h' a hb
    cases hb
    exact ⟨_, rfl, fun _ => by simp⟩
  | bin op s t i1 i2 =>
    intro h h' a hb
    obtain ⟨⟨h1, a1⟩, b1, hb⟩ := okInv hb
    obtain ⟨⟨h2, a2⟩, b2, hb⟩ := okInv hb
    obtain ⟨e1, rfl, _⟩ := i1 b1
    obtain ⟨e2, rfl, _⟩ := i2 b2
    cases hb
    exact ⟨e1 ++ e2 ++ [some (.bin op (.rep a1) (.rep a2))], by simp, fun _ => by simp⟩
  | binS op t s i1 =>
    intro h h' a hb
    obtain ⟨⟨h1, a1⟩, b1, hb⟩ := okInv hb
    obtain ⟨⟨h2, a2⟩, b2, hb⟩ := okInv hb
    obtain ⟨e1, rfl, _⟩ := i1 b1
    obtain ⟨e2, rfl⟩ := buildS_ext s b2
    cases hb
    exact ⟨e1 ++ e2 ++ [some (.bin op (.rep a1) (.scal a2))], by simp, fun _ => by simp⟩
  | sBin op s t i1 =>
    intro h h' a hb
    obtain ⟨⟨h1, a1⟩, b1, hb⟩ := okInv hb
    obtain ⟨⟨h2, a2⟩, b2, hb⟩ := okInv hb
    obtain ⟨e1, rfl⟩ := buildS_ext s b1
    obtain ⟨e2, rfl, _⟩ := i1 b2
    cases hb
    exact ⟨e1 ++ e2 ++ [some (.bin op (.scal a1) (.rep a2))], by simp, fun _ => by simp⟩
  | un f t i1 =>
    intro h h' a hb
    obtain ⟨⟨h1, a1⟩, b1, hb⟩ := okInv hb
    obtain ⟨e1, rfl, _⟩ := i1 b1
    cases hb
    exact ⟨e1 ++ [some (.un f a1)], by simp, fun _ => by simp⟩

omit [Field K] in
private theorem declare_heap (vars : List Nat) (h e : Heap K) (c : Cell K) :
    (Kept.declare vars h.length (h ++ e) c).heap = h ++ (List.replicate e.length none ++ [some c]) := by
  show endStatement h.length (h ++ e) ++ [some c] = _
  rw [← List.append_assoc]
  congr 1
  simp [endStatement]

/-- What no statement changes: dead objects, expression objects, and the addresses of variables. -/
private structure Lasts (s s' : State K) : Prop where
  dead : ∀ (b : Nat), s.heap[b]? = some none → s'.heap[b]? = some none
  bin : ∀ (b : Nat) op p q, s.heap[b]? = some (some (.bin op p q)) → s'.heap[b]? = some (some (.bin op p q))
  un : ∀ (b : Nat) f p, s.heap[b]? = some (some (.un f p)) → s'.heap[b]? = some (some (.un f p))
  vars : ∀ (v a : Nat), s.vars[v]? = some a → s'.vars[v]? = some a

omit [Field K] in
private theorem lasts_declare (s : State K) (e : Heap K) (c : Cell K) : Lasts s (Kept.declare s.vars s.heap.length (s.heap ++ e) c) := by
  constructor
  · intro b hb; rw [declare_heap]; exact get_append _ hb
  · intro b op p q hb; rw [declare_heap]; exact get_append _ hb
  · intro b f p hb; rw [declare_heap]; exact get_append _ hb
  · intro v a hv; exact get_append _ hv

omit [Field K] in
private theorem lasts_set (s : State K) (a : Nat) (c d : Cell K) (h : s.heap[a]? = some (some c)) (h1 : ∀ op p q, c ≠ .bin op p q)
    (h2 : ∀ f p, c ≠ .un f p) : Lasts s ⟨s.heap.set a (some d), s.vars⟩ := by
  have key : ∀ (b : Nat) (x : Option (Cell K)), s.heap[b]? = some x → x ≠ some c → (s.heap.set a (some d))[b]? = some x := by
    intro b x hb hx
    rw [List.getElem?_set_ne (by rintro rfl; rw [h] at hb; cases hb; exact hx rfl), hb]
  constructor
  · intro b hb; exact key b _ hb (by simp)
  · intro b op p q hb; exact key b _ hb (by intro hcon; cases hcon; exact h1 _ _ _ rfl)
  · intro b f p hb; exact key b _ hb (by intro hcon; cases hcon; exact h2 _ _ rfl)
  · intro v a hv; exact hv

private theorem lasts_step {s s' : State K} {st : Stmt K} (h : step s st = .ok s') : Lasts s s' := by
  cases st with
  | point x =>
    cases h
    have := lasts_declare s [] (.pt x)
    rwa [List.append_nil] at this
  | scalar c =>
    cases h
    have := lasts_declare s [] (.sc c)
    rwa [List.append_nil] at this
  | keep t =>
    obtain ⟨⟨h1, a⟩, hb, h⟩ := okInv h
    obtain ⟨e, rfl, _⟩ := build_ext t hb
    dsimp only at h
    split at h
    · cases h; exact lasts_declare s e _
    · cases h
  | construct t =>
    obtain ⟨⟨h1, a⟩, hb, h⟩ := okInv h
    obtain ⟨x, _, h⟩ := okInv h
    obtain ⟨e, rfl, _⟩ := build_ext t hb
    cases h
    exact lasts_declare s e _
  | setPoint v x =>
    obtain ⟨a, _, h⟩ := okInv h
    split at h
    · next y hy =>
      cases h
      exact lasts_set s a _ _ hy (by simp) (by simp)
    · cases h
  | setScalar v x =>
    obtain ⟨a, _, h⟩ := okInv h
    split at h
    · next y hy =>
      cases h
      exact lasts_set s a _ _ hy (by simp) (by simp)
    · cases h

omit [Field K] in
private theorem Lasts.trans {s s' s'' : State K} (a : Lasts s s') (b : Lasts s' s'') : Lasts s s'' :=
  ⟨fun i h => b.dead i (a.dead i h), fun i op p q h => b.bin i op p q (a.bin i op p q h), fun i f p h => b.un i f p (a.un i f p h),
    fun v x h => b.vars v x (a.vars v x h)⟩

private theorem lasts_run : ∀ (q : List (Stmt K)) (s s' : State K), q.foldlM step s = .ok s' → Lasts s s'
  | [], s, s', h => by
    cases h
    exact ⟨fun _ h => h, fun _ _ _ _ h => h, fun _ _ _ h => h, fun _ _ h => h⟩
  | st :: q, s, s', h => by
    rw [List.foldlM_cons] at h
    obtain ⟨s1, h1, h2⟩ := okInv h
    exact (lasts_step h1).trans (lasts_run q s1 s' h2)

omit [Field K] in
/-- Objects made in a statement are dead after it. -/
private theorem dead_after (vars : List Nat) (h e : Heap K) (c : Cell K) (a : Nat) (h1 : h.length ≤ a) (h2 : a < (h ++ e).length) :
    (Kept.declare vars h.length (h ++ e) c).heap[a]? = some none := by
  rw [List.length_append] at h2
  rw [declare_heap, List.getElem?_append_right h1, List.getElem?_append_left (by rw [List.length_replicate]; omega)]
  rw [List.getElem?_replicate, if_pos (by omega)]

omit [Field K] in
private theorem new_var (vars : List Nat) (h e : Heap K) (c : Cell K) :
    (Kept.declare vars h.length (h ++ e) c).vars[vars.length]? = some (h ++ e).length ∧
      (Kept.declare vars h.length (h ++ e) c).heap[(h ++ e).length]? = some (some c) := by
  constructor
  · show (vars ++ [(h ++ e).length])[vars.length]? = _
    simp
  · rw [declare_heap, List.getElem?_append_right (by simp)]
    simp

omit [Field K] in
private theorem size_dead {h : Heap K} {b : Nat} (hb : h[b]? = some none) (n : Nat) : ∀ m, hsize h n (.rep b) ≠ .ok m := by
  intro m
  cases n with
  | zero => simp [hsize]
  | succ n => simp [hsize, hb]

omit [Field K] in
/-- The size of an expression object with a dead operand cannot be had. -/
private theorem size_bin {h : Heap K} {a b : Nat} {op : BinOp} {p q : Operand} (ha : h[a]? = some (some (.bin op p q)))
    (hb : h[b]? = some none) (hpq : p = .rep b ∨ q = .rep b) (n : Nat) : ∀ m, hsize h n (.rep a) ≠ .ok m := by
  intro m
  cases n with
  | zero => simp [hsize]
  | succ n =>
    intro hcon
    simp only [hsize, ha] at hcon
    obtain ⟨x, hx, hcon⟩ := okInv hcon
    obtain ⟨y, hy, hcon⟩ := okInv hcon
    rcases hpq with rfl | rfl
    · exact size_dead hb _ _ hx
    · exact size_dead hb _ _ hy

/-- What the variable that keeps a nested expression holds. -/
private theorem keep_nested {s s1 : State K} {t : Term K} (hn : NestedOperand t) (h : step s (.keep t) = .ok s1) :
    ∃ a b, s1.vars[s.vars.length]? = some a ∧ s1.heap[b]? = some none ∧
      ((∃ op p q, s1.heap[a]? = some (some (.bin op p q)) ∧ (p = .rep b ∨ q = .rep b)) ∨ ∃ f, s1.heap[a]? = some (some (.un f b))) := by
  obtain ⟨⟨h0, a0⟩, hb, h⟩ := okInv h
  cases t with
  | var v => exact absurd hn id
  | temp x => exact absurd hn id
  | bin op u w =>
    obtain ⟨⟨h1, a1⟩, b1, hb⟩ := okInv hb
    obtain ⟨⟨h2, a2⟩, b2, hb⟩ := okInv hb
    obtain ⟨e1, rfl, d1⟩ := build_ext u b1
    obtain ⟨e2, rfl, d2⟩ := build_ext w b2
    cases hb
    have hc : (s.heap ++ e1 ++ e2 ++ [some (Cell.bin op (.rep a1) (.rep a2))])[(s.heap ++ e1 ++ e2).length]? =
        some (some (Cell.bin op (.rep a1) (.rep a2))) := by simp
    simp only [hc] at h
    cases h
    have hassoc : s.heap ++ e1 ++ e2 ++ [some (Cell.bin op (.rep a1) (.rep a2))] =
        s.heap ++ (e1 ++ e2 ++ [some (Cell.bin op (.rep a1) (.rep a2))]) := by simp
    rw [hassoc]
    obtain ⟨n1, n2⟩ := new_var s.vars s.heap (e1 ++ e2 ++ [some (Cell.bin op (.rep a1) (.rep a2))]) (.bin op (.rep a1) (.rep a2))
    rcases hn with hn | hn
    · have := d1 hn
      refine ⟨_, a1, n1, dead_after _ _ _ _ a1 this.1 ?_, Or.inl ⟨op, _, _, n2, Or.inl rfl⟩⟩
      have h3 := this.2
      simp only [List.length_append] at h3 ⊢; omega
    · have := d2 hn
      refine ⟨_, a2, n1, dead_after _ _ _ _ a2 ?_ ?_, Or.inl ⟨op, _, _, n2, Or.inr rfl⟩⟩
      · have h3 := this.1
        simp only [List.length_append] at h3; omega
      · have h3 := this.2
        simp only [List.length_append] at h3 ⊢; omega
  | binS op u w =>
    obtain ⟨⟨h1, a1⟩, b1, hb⟩ := okInv hb
    obtain ⟨⟨h2, a2⟩, b2, hb⟩ := okInv hb
    obtain ⟨e1, rfl, d1⟩ := build_ext u b1
    obtain ⟨e2, rfl⟩ := buildS_ext w b2
    cases hb
    have hc : (s.heap ++ e1 ++ e2 ++ [some (Cell.bin op (.rep a1) (.scal a2))])[(s.heap ++ e1 ++ e2).length]? =
        some (some (Cell.bin op (.rep a1) (.scal a2))) := by simp
    simp only [hc] at h
    cases h
    have hassoc : s.heap ++ e1 ++ e2 ++ [some (Cell.bin op (.rep a1) (.scal a2))] =
        s.heap ++ (e1 ++ e2 ++ [some (Cell.bin op (.rep a1) (.scal a2))]) := by simp
    rw [hassoc]
    obtain ⟨n1, n2⟩ := new_var s.vars s.heap (e1 ++ e2 ++ [some (Cell.bin op (.rep a1) (.scal a2))]) (.bin op (.rep a1) (.scal a2))
    have := d1 hn
    refine ⟨_, a1, n1, dead_after _ _ _ _ a1 this.1 ?_, Or.inl ⟨op, _, _, n2, Or.inl rfl⟩⟩
    have h3 := this.2
    simp only [List.length_append] at h3 ⊢; omega
  | sBin op u w =>
    obtain ⟨⟨h1, a1⟩, b1, hb⟩ := okInv hb
    obtain ⟨⟨h2, a2⟩, b2, hb⟩ := okInv hb
    obtain ⟨e1, rfl⟩ := buildS_ext u b1
    obtain ⟨e2, rfl, d2⟩ := build_ext w b2
    cases hb
    have hc : (s.heap ++ e1 ++ e2 ++ [some (Cell.bin op (.scal a1) (.rep a2))])[(s.heap ++ e1 ++ e2).length]? =
        some (some (Cell.bin op (.scal a1) (.rep a2))) := by simp
    simp only [hc] at h
    cases h
    have hassoc : s.heap ++ e1 ++ e2 ++ [some (Cell.bin op (.scal a1) (.rep a2))] =
        s.heap ++ (e1 ++ e2 ++ [some (Cell.bin op (.scal a1) (.rep a2))]) := by simp
    rw [hassoc]
    obtain ⟨n1, n2⟩ := new_var s.vars s.heap (e1 ++ e2 ++ [some (Cell.bin op (.scal a1) (.rep a2))]) (.bin op (.scal a1) (.rep a2))
    have := d2 hn
    refine ⟨_, a2, n1, dead_after _ _ _ _ a2 ?_ ?_, Or.inl ⟨op, _, _, n2, Or.inr rfl⟩⟩
    · have h3 := this.1
      simp only [List.length_append] at h3; omega
    · have h3 := this.2
      simp only [List.length_append] at h3 ⊢; omega
  | un f u =>
    obtain ⟨⟨h1, a1⟩, b1, hb⟩ := okInv hb
    obtain ⟨e1, rfl, d1⟩ := build_ext u b1
    cases hb
    have hc : (s.heap ++ e1 ++ [some (Cell.un f a1)])[(s.heap ++ e1).length]? = some (some (Cell.un f a1)) := by simp
    simp only [hc] at h
    cases h
    have hassoc : s.heap ++ e1 ++ [some (Cell.un f a1)] = s.heap ++ (e1 ++ [some (Cell.un f a1)]) := by simp
    rw [hassoc]
    obtain ⟨n1, n2⟩ := new_var s.vars s.heap (e1 ++ [some (Cell.un f a1)]) (.un f a1)
    have := d1 hn
    refine ⟨_, a1, n1, dead_after _ _ _ _ a1 this.1 ?_, Or.inr ⟨f, n2⟩⟩
    have h3 := this.2
    simp only [List.length_append] at h3 ⊢; omega

/-- **C197 (refuted)** Keep, after any program, an expression of more than one operation, or one with a point made in it: whatever the program does then, a
point can never be made from that variable; its use touches an operand that no longer exists (or fails before). -/
theorem C197_nested_refuted (p q : List (Stmt K)) (t : Term K) (hn : NestedOperand t) (s0 s : State K) (h0 : run p = .ok s0)
    (h : run (p ++ .keep t :: q) = .ok s) : ∀ s', run (p ++ .keep t :: q ++ [.construct (.var s0.vars.length)]) ≠ .ok s' := by
  intro s' hs'
  have h' := h
  unfold run at h h0 hs'
  rw [List.foldlM_append, h0, Res_bind_ok, List.foldlM_cons] at h
  obtain ⟨s1, h1, h2⟩ := okInv h
  rw [List.foldlM_append, show List.foldlM step ⟨[], []⟩ (p ++ .keep t :: q) = .ok s from h', Res_bind_ok, List.foldlM_cons] at hs'
  obtain ⟨s2, h3, _⟩ := okInv hs'
  obtain ⟨⟨h4, a4⟩, hb, h5⟩ := okInv h3
  obtain ⟨x, hx, _⟩ := okInv h5
  obtain ⟨a, b, v1, v2, v3⟩ := keep_nested hn h1
  have hl := lasts_run q s1 s h2
  obtain ⟨a5, hv, hb⟩ := okInv hb
  rw [vget_eq_ok, hl.vars _ _ v1] at hv
  cases hv
  cases hb
  obtain ⟨n, hsz, _⟩ := okInv hx
  rcases v3 with ⟨op, pp, qq, v4, v5⟩ | ⟨f, v4⟩
  · exact size_bin (hl.bin _ _ _ _ v4) (hl.dead _ v2) v5 _ _ hsz
  · have h6 := hl.un _ _ _ v4
    simp only [hsize, h6] at hsz
    exact size_dead (hl.dead _ v2) _ _ hsz

/-- `a = {1}; auto e = (a + a) + a;` -/
example : (run [.point [1], .keep (.bin .add (.bin .add (.var 0) (.var 0)) (.var 0))] : Res (State ℚ)).isOk = true := by decide +kernel

/-- The same expression used in the statement that builds it is right. -/
example : (run [.point [1], .construct (.bin .add (.bin .add (.var 0) (.var 0)) (.var 0))]).toOption.bind (fun s => pointOf s 1) = some [(3 : ℚ)] := by
  decide +kernel

/-- **C197 (refuted)** Keep, after any program, an operation of a point variable with a number written in the statement (`auto e = a * 2.0`): whatever the program
does then, a point can never be made from that variable as long as `a` has a component. -/
theorem C197_literal_refuted (p q : List (Stmt K)) (op : BinOp) (u : Nat) (c : K) (s0 s : State K) (h0 : run p = .ok s0)
    (h : run (p ++ .keep (.binS op (.var u) (.lit c)) :: q) = .ok s) (x : List K) (hu : pointOf s u = some x) (hx : x ≠ []) :
    run (p ++ .keep (.binS op (.var u) (.lit c)) :: q ++ [.construct (.var s0.vars.length)]) = .error .badPointer := by
  have h' := h
  unfold run at h h0 ⊢
  rw [List.foldlM_append, h0, Res_bind_ok, List.foldlM_cons] at h
  obtain ⟨s1, h1, h2⟩ := okInv h
  rw [List.foldlM_append, show List.foldlM step ⟨[], []⟩ (p ++ .keep (.binS op (.var u) (.lit c)) :: q) = .ok s from h', Res_bind_ok,
    List.foldlM_cons]
  have hl := lasts_run q s1 s h2
  obtain ⟨⟨h3, a3⟩, hb, h1⟩ := okInv h1
  obtain ⟨⟨h4, a1⟩, b1, hb⟩ := okInv hb
  obtain ⟨a, hv, b1⟩ := okInv b1
  cases b1
  cases hb
  simp only [alloc] at h1
  have hc : (s0.heap ++ [some (Cell.sc c)] ++ [some (Cell.bin op (.rep a1) (.scal s0.heap.length))])[(s0.heap ++ [some (Cell.sc c)]).length]? =
      some (some (Cell.bin op (.rep a1) (.scal s0.heap.length))) := by simp
  simp only [hc] at h1
  cases h1
  have hassoc : s0.heap ++ [some (Cell.sc c)] ++ [some (Cell.bin op (.rep a1) (.scal s0.heap.length))] =
      s0.heap ++ [some (Cell.sc c), some (Cell.bin op (.rep a1) (.scal s0.heap.length))] := by simp
  rw [hassoc] at hl
  obtain ⟨n1, n2⟩ := new_var s0.vars s0.heap [some (Cell.sc c), some (Cell.bin op (.rep a1) (.scal s0.heap.length))]
    (.bin op (.rep a1) (.scal s0.heap.length))
  have n3 := dead_after s0.vars s0.heap [some (Cell.sc c), some (Cell.bin op (.rep a1) (.scal s0.heap.length))]
    (.bin op (.rep a1) (.scal s0.heap.length)) s0.heap.length (le_refl _) (by simp)
  have m1 := hl.vars _ _ n1
  have m2 := hl.bin _ _ _ _ n2
  have m3 := hl.dead _ n3
  have m4 : s.vars[u]? = some a1 := hl.vars u a1 (get_append _ (vget_eq_ok.1 hv))
  have m5 : s.heap[a1]? = some (some (.pt x)) := by
    unfold pointOf at hu
    rw [m4] at hu
    dsimp only at hu
    split at hu
    · next y hy => cases hu; exact hy
    · cases hu
  have hlt : 0 < s.heap.length := Nat.lt_of_le_of_lt (Nat.zero_le _) (List.getElem?_eq_some_iff.1 m5).1
  obtain ⟨k, hk⟩ : ∃ k, s.heap.length = k + 1 := ⟨s.heap.length - 1, by omega⟩
  obtain ⟨y, ys, rfl⟩ := List.exists_cons_of_ne_nil hx
  have hsz : hsize s.heap (s.heap.length + 1) (.rep (s0.heap ++ [some (Cell.sc c), some (Cell.bin op (.rep a1) (.scal s0.heap.length))]).length) =
      .ok (ys.length + 1) := by
    simp only [hsize, m2, hk, m5, Res_bind_ok]
    simp [Expr.combineSize]
  have hat0 : hat s.heap (s.heap.length + 1) (.rep (s0.heap ++ [some (Cell.sc c), some (Cell.bin op (.rep a1) (.scal s0.heap.length))]).length) 0 =
      .error .badPointer := by
    simp only [hat, m2, hk, m5, m3]
    rfl
  have hb : build s.vars s.heap (.var s0.vars.length) =
      .ok (s.heap, (s0.heap ++ [some (Cell.sc c), some (Cell.bin op (.rep a1) (.scal s0.heap.length))]).length) := by
    simp only [build, vget_eq_ok.2 m1, Res_bind_ok]
    rfl
  have hcon : hconstruct s.heap (s0.heap ++ [some (Cell.sc c), some (Cell.bin op (.rep a1) (.scal s0.heap.length))]).length = .error .badPointer := by
    rw [hconstruct, hsz, Res_bind_ok, hcopy, hat0, Res_bind_error]
  simp only [step, hb, Res_bind_ok, hcon, Res_bind_error]

example : (run [.point [1, 2], .keep (.binS .mul (.var 0) (.lit 2))] : Res (State ℚ)).isOk = true := by decide +kernel

end
end
end MLTK.Props
