import Verif.Lemmas.Csv
import Verif.Spec.Crash
/-!
# Lemmas about files that lost their end
-/
namespace MLTK.Text
open MLTK.Data (Res_bind_ok Res_bind_error Res_pure)
open MLTK.Spec

theorem prefix_append_iff {α : Type} {s a b : List α} (h : s <+: a ++ b) : s <+: a ∨ ∃ s', s = a ++ s' ∧ s' <+: b := by
  rcases le_total s.length a.length with hl | hl
  · exact Or.inl (List.prefix_of_prefix_length_le h (List.prefix_append a b) hl)
  · obtain ⟨s', rfl⟩ := List.prefix_of_prefix_length_le (List.prefix_append a b) h hl
    exact Or.inr ⟨s', rfl, (List.prefix_append_right_inj a).1 h⟩

/-- The value of the first digits of a number. -/
theorem cut_digits (as bs : List Nat) (hb : ∀ k ∈ bs, k < 10) : digitsValue as = digitsValue (as ++ bs) / 10 ^ bs.length := by
  rw [digitsValue_append, mul_comm, Nat.mul_add_div (by positivity), Nat.div_eq_of_lt (digitsValue_lt bs hb), Nat.add_zero]


/-- A number with its last characters missing: its sign alone, or the number that its first digits denote. -/
theorem cut_shape {n : Int} {s t : List Char} (hs : IsNumeral n s) (ht : t <+: s) (hne : t ≠ []) :
    t = ['-'] ∧ n < 0 ∨ ∃ j : Nat, IsNumeral (n.tdiv (10 ^ j)) t := by
  obtain ⟨ks, h1, h2, h3, h4, rfl⟩ := hs
  have key : ∀ as bs : List Nat, ks = as ++ bs → as ≠ [] →
      IsNumeral (n.tdiv (10 ^ bs.length)) ((if n < 0 then ['-'] else []) ++ as.map digitChar) := by
    intro as bs hab ha
    have hv : digitsValue as = n.natAbs / 10 ^ bs.length := by
      rw [← h4, hab]
      exact cut_digits as bs (fun k hk => h2 k (by rw [hab]; exact List.mem_append_right _ hk))
    have habs : (n.tdiv (10 ^ bs.length)).natAbs = n.natAbs / 10 ^ bs.length := by
      rw [Int.natAbs_tdiv]
      congr 1
    have hzero : as.head? = some 0 → as = [0] ∧ n = 0 := by
      intro h0
      cases as with
      | nil => simp at h0
      | cons a as =>
        have := h3 (by rw [hab]; simpa using h0)
        rw [hab] at this
        simp only [List.cons_append, List.cons.injEq, List.append_eq_nil_iff] at this
        refine ⟨by rw [this.1, this.2.1], ?_⟩
        rw [hab, this.1, this.2.1, this.2.2] at h4
        simp [digitsValue] at h4
        omega
    have hsign : n < 0 ↔ n.tdiv (10 ^ bs.length) < 0 := by
      constructor
      · intro hneg
        have hpos : 0 < digitsValue as := by
          cases as with
          | nil => exact absurd rfl ha
          | cons a as =>
            by_cases ha0 : a = 0
            · have := (hzero (by simp [ha0])).2; omega
            · have := digitsValue_ge a as ha0
              have : 0 < 10 ^ as.length := by positivity
              omega
        have h5 := Int.tdiv_nonneg (by omega : 0 ≤ -n) (by positivity : (0 : Int) ≤ 10 ^ bs.length)
        rw [Int.neg_tdiv] at h5
        have h6 : n.tdiv (10 ^ bs.length) ≠ 0 := by
          intro h; rw [h] at habs; simp only [Int.natAbs_zero] at habs; omega
        omega
      · intro hneg
        by_contra hc
        have := Int.tdiv_nonneg (not_lt.1 hc) (by positivity : (0 : Int) ≤ 10 ^ bs.length)
        omega
    refine ⟨as, ha, fun k hk => h2 k (by rw [hab]; exact List.mem_append_left _ hk), fun h => (hzero h).1, by rw [hv, habs], ?_⟩
    by_cases hn : n < 0
    · rw [if_pos hn, if_pos (hsign.1 hn)]
    · rw [if_neg hn, if_neg (fun h => hn (hsign.2 h))]
  have digits : ∀ u : List Char, u <+: ks.map digitChar → ∃ as bs : List Nat, ks = as ++ bs ∧ u = as.map digitChar := by
    rintro u ⟨w, hw⟩
    obtain ⟨as, bs, h, h', -⟩ := List.append_eq_map_iff.1 hw
    exact ⟨as, bs, h, h'.symm⟩
  by_cases hn : n < 0
  · rw [if_pos hn] at ht key
    rcases prefix_append_iff ht with h | ⟨u, rfl, hu⟩
    · left
      rcases t with - | ⟨c, t⟩
      · exact absurd rfl hne
      · rw [List.cons_prefix_cons] at h
        rw [h.1, List.prefix_nil.1 h.2]
        exact ⟨rfl, hn⟩
    · obtain ⟨as, bs, h, rfl⟩ := digits u hu
      by_cases ha : as = []
      · subst ha
        exact Or.inl ⟨rfl, hn⟩
      · exact Or.inr ⟨bs.length, key as bs h ha⟩
  · rw [if_neg hn] at ht key
    obtain ⟨as, bs, h, rfl⟩ := digits t (by simpa using ht)
    exact Or.inr ⟨bs.length, by simpa using key as bs h (by rintro rfl; exact hne rfl)⟩

/-- What a number with its last characters missing is read as. -/
theorem cut_numeral {n : Int} {s t : List Char} (hs : IsNumeral n s) (ht : t <+: s) (hne : t ≠ []) :
    isNumber t = true ∧ ∃ j : Nat, atod t = ((n.tdiv (10 ^ j) : Int) : ℚ) := by
  rcases cut_shape hs ht hne with ⟨rfl, -⟩ | ⟨j, h⟩
  · obtain ⟨ks, h1, h2, h3, h4, rfl⟩ := hs
    refine ⟨by decide, ks.length, ?_⟩
    have h0 : n.tdiv (10 ^ ks.length) = 0 := by
      rw [← Int.natAbs_eq_zero, Int.natAbs_tdiv, Int.natAbs_pow, ← h4]
      exact Nat.div_eq_of_lt (digitsValue_lt ks h2)
    rw [h0]
    decide +kernel
  · exact ⟨numeral_isNumber h, j, atod_numeral h⟩

/-- A line with its last characters missing: either it has fewer pieces than before, or only its last piece is shorter. -/
theorem cut_line (d : Char) : ∀ (ts : List (List Char)) (u s : List Char), (∀ t ∈ ts ++ [u], t ≠ [] ∧ d ∉ t) →
    s <+: List.intercalate [d] (ts ++ [u]) →
    (getlines d s []).length < ts.length + 1 ∨ ∃ t, t ≠ [] ∧ t <+: u ∧ s = List.intercalate [d] (ts ++ [t])
  | [], u, s, h, hs => by
    have e : ∀ t : List Char, List.intercalate [d] ([] ++ [t]) = t := fun t => by simp [List.intercalate]
    rw [e] at hs
    by_cases h0 : s = []
    · left; subst h0; simp [getlines]
    · exact Or.inr ⟨s, h0, hs, (e s).symm⟩
  | t :: ts, u, s, h, hs => by
    have e : ∀ v : List Char, List.intercalate [d] (t :: ts ++ [v]) = t ++ d :: List.intercalate [d] (ts ++ [v]) := by
      intro v
      cases ts with
      | nil => exact intercalate_cons₂ d t v []
      | cons a ts => exact intercalate_cons₂ d t a (ts ++ [v])
    rw [e] at hs
    have ht := h t (by simp)
    have short : s <+: t → (getlines d s []).length < (t :: ts).length + 1 := by
      intro hst
      by_cases h0 : s = []
      · subst h0; simp [getlines]
      · rw [getlines_last d s (fun hc => ht.2 (hst.subset hc)) h0]; simp
    rcases prefix_append_iff hs with h1 | ⟨s', rfl, h1⟩
    · exact Or.inl (short h1)
    · cases s' with
      | nil => exact Or.inl (short (by simp))
      | cons c s' =>
        rw [List.cons_prefix_cons] at h1
        obtain ⟨rfl, h2⟩ := h1
        rw [getlines_piece c t s' ht.2]
        rcases cut_line c ts u s' (fun x hx => h x (by simp at hx ⊢; tauto)) h2 with h3 | ⟨v, h3, h4, rfl⟩
        · left; simpa using h3
        · exact Or.inr ⟨v, h3, h4, (e v).symm⟩

/-- A file with its last characters missing: some whole lines, and the beginning of another. -/
theorem cut_file : ∀ (ps : List (Int × List Int)) (s : List Char), (∀ p ∈ ps, p.2 ≠ []) → s <+: writeCsv ps →
    s = writeCsv ps ∨ ∃ pre p post t, ps = pre ++ p :: post ∧ t <+: lineBody p ∧ s = writeCsv pre ++ t
  | [], s, _, hs => Or.inl (by simpa [writeCsv] using hs)
  | p :: ps, s, h, hs => by
    have e : writeCsv (p :: ps) = writeLine p ++ writeCsv ps := by simp [writeCsv]
    have ep : writeLine p = lineBody p ++ ['\n'] := writeLine_eq p (h p (by simp))
    rw [e] at hs
    rcases prefix_append_iff hs with h1 | ⟨s', rfl, h1⟩
    · rw [ep] at h1
      rcases prefix_append_iff h1 with h2 | ⟨r, rfl, h2⟩
      · exact Or.inr ⟨[], p, ps, s, rfl, h2, by simp [writeCsv]⟩
      · rcases r with - | ⟨c, r⟩
        · exact Or.inr ⟨[], p, ps, lineBody p, rfl, List.prefix_refl _, by simp [writeCsv]⟩
        · rw [List.cons_prefix_cons] at h2
          obtain ⟨rfl, h3⟩ := h2
          rw [List.prefix_nil] at h3
          subst h3
          cases ps with
          | nil => left; rw [e, ep]; simp [writeCsv]
          | cons q ps =>
            exact Or.inr ⟨[p], q, ps, [], rfl, List.nil_prefix, by simp [writeCsv, ep]⟩
    · rcases cut_file ps s' (fun q hq => h q (by simp [hq])) h1 with rfl | ⟨pre, q, post, t, rfl, h2, rfl⟩
      · left; rw [e]
      · exact Or.inr ⟨p :: pre, q, post, t, rfl, h2, by simp [writeCsv]⟩

/-- Reading the items of a line whose features are read as these values. -/
theorem readItems_reads (cls : Bool) : ∀ (ks : List Int) (items : List (List Char × Bool)) (pre : List ℚ)
    (x : List ℚ) (y : ℚ) (cl : Classes),
    List.Forall₂ (fun (k : Int) t => isNumber t = true ∧ atod t = (k : ℚ)) ks (items.map Prod.fst) → x.length = ks.length →
    readItems false cls items (pre.length + 1) (pre ++ x) y cl = .ok (pre ++ ks.map (fun k : Int => (k : ℚ)), y, cl) := by
  intro ks
  induction ks with
  | nil =>
    intro items pre x y cl h hx
    have hi : items = [] := by
      cases items with
      | nil => rfl
      | cons a b => simp at h
    subst hi
    have : x = [] := List.length_eq_zero_iff.1 hx
    subst this
    simp [readItems]
  | cons k ks ih =>
    intro items pre x y cl h hx
    cases items with
    | nil => simp at h
    | cons it items =>
      obtain ⟨item, eof⟩ := it
      simp only [List.map_cons] at h
      obtain ⟨h1, h2⟩ := List.forall₂_cons.1 h
      cases x with
      | nil => simp at hx
      | cons a x =>
        simp only [readItems, Bool.false_eq_true, if_false, decide_eq_true_eq, ne_eq, Nat.succ_ne_zero,
          not_false_eq_true, if_true, h1.1, Nat.add_sub_cancel]
        have hset : vset (pre ++ a :: x) pre.length (atod item) = .ok ((pre ++ [(k : ℚ)]) ++ x) := by
          rw [h1.2]
          simp [vset]
        rw [hset, Res_bind_ok]
        have := ih items (pre ++ [(k : ℚ)]) x y cl h2 (by simpa using hx)
        simp only [List.length_append, List.length_singleton, List.append_assoc, List.singleton_append] at this
        simpa using this

/-- Two files whose last lines are read alike are read alike. -/
theorem readLines_last (cls : Bool) (dim : Nat) (l l' : List Char)
    (h : ∀ cl, readItems false cls (getlines ',' (trim l) []) 0 (List.replicate dim 0) 0 cl =
      readItems false cls (getlines ',' (trim l') []) 0 (List.replicate dim 0) 0 cl) : ∀ (ls : List (List Char)) (n : Nat) (cl : Classes),
    readLines false cls ',' dim (ls ++ [l]) n cl = readLines false cls ',' dim (ls ++ [l']) n cl
  | [], n, cl => by simp only [List.nil_append, readLines, h]
  | a :: ls, n, cl => by simp only [List.cons_append, readLines, readLines_last cls dim l l' h ls]

/-- A file whose last line has the wrong number of pieces is refused. -/
theorem firstPass_refused (n : Nat) (hn : n ≠ 0) (l : List Char) (hl : (getlines ',' (trim l) []).length ≠ n + 1) :
    ∀ (ls : List (List Char)) (m : Nat), (∀ a ∈ ls, (getlines ',' (trim a) []).length = n + 1) →
    firstPass ',' (ls ++ [l]) n m = none
  | [], m, _ => by
    simp only [List.nil_append, firstPass]
    rw [if_pos ⟨by omega, by omega⟩]
  | a :: ls, m, h => by
    have e : ((getlines ',' (trim a) []).length : Int) - 1 = n := by rw [h a (by simp)]; push_cast; ring
    simp only [List.cons_append, firstPass, e]
    rw [if_neg (by simp)]
    exact firstPass_refused n hn l hl ls (m + 1) (fun x hx => h x (by simp [hx]))

theorem getlines_cut (d : Char) (t : List Char) (ht : d ∉ t) (hne : t ≠ []) : ∀ (ls : List (List Char)), (∀ l ∈ ls, d ∉ l) →
    (getlines d ((ls.map (fun l => l ++ [d])).flatten ++ t) []).map Prod.fst = ls ++ [t]
  | [], _ => by simp [getlines_last d t ht hne]
  | l :: ls, h => by
    rw [List.map_cons, List.flatten_cons, List.append_assoc, List.append_assoc, List.singleton_append,
      getlines_piece d l _ (h l (by simp)), List.map_cons, List.cons_append,
      getlines_cut d t ht hne ls (fun x hx => h x (List.mem_cons_of_mem _ hx))]

end MLTK.Text
