import Verif.Spec.Gnuplot
import Verif.Lemmas.AosRun
/-!
# Lemmas about sessions with gnuplot
-/
namespace MLTK.Gp
open MLTK.Spec
open MLTK.Data (Res_bind_ok Res_bind_error Res_pure)
variable {K : Type}

/-! ### Words in texts -/

theorem infix_sep {pat a b : Txt} {c : Char} (hc : c ∉ pat) (hp : pat <:+: a ++ c :: b) : pat <:+: a ∨ pat <:+: b := by
  obtain ⟨u, v, h⟩ := hp
  rcases List.append_eq_append_iff.1 h with ⟨a', h1, -⟩ | ⟨c', h1, h2⟩
  · exact .inl ⟨u, a', h1.symm⟩
  · cases c' with
    | nil => exact .inl ⟨u, [], by simpa using h1⟩
    | cons x xs =>
      simp only [List.cons_append, List.cons.injEq] at h2
      obtain ⟨rfl, rfl⟩ := h2
      rcases List.append_eq_append_iff.1 h1 with ⟨a', -, h3⟩ | ⟨d, -, h4⟩
      · exact absurd (by rw [h3]; simp) hc
      · cases d with
        | nil => exact absurd (by rw [List.nil_append] at h4; rw [← h4]; simp) hc
        | cons y ys =>
          simp only [List.cons_append, List.cons.injEq] at h4
          exact .inr ⟨ys, v, by rw [h4.2]⟩

theorem free_left {pat a b : Txt} {c : Char} (hl : a.getLast? = some c) (hc : c ∉ pat) (ha : ¬ pat <:+: a) (hb : ¬ pat <:+: b) :
    ¬ pat <:+: a ++ b := by
  obtain ⟨a0, rfl⟩ : ∃ a0, a = a0 ++ [c] := by
    rw [List.getLast?_eq_some_iff] at hl
    exact hl
  intro h
  rw [List.append_assoc, List.singleton_append] at h
  rcases infix_sep hc h with h | h
  · exact ha (h.trans (List.prefix_append _ _).isInfix)
  · exact hb h

theorem free_right {pat a b : Txt} {c : Char} (hl : b.head? = some c) (hc : c ∉ pat) (ha : ¬ pat <:+: a) (hb : ¬ pat <:+: b) :
    ¬ pat <:+: a ++ b := by
  cases b with
  | nil => cases hl
  | cons x b0 =>
    simp only [List.head?_cons, Option.some.injEq] at hl
    subst hl
    intro h
    rcases infix_sep hc h with h | h
    · exact ha h
    · exact hb (h.trans (List.suffix_cons _ _).isInfix)

theorem free_chars {pat t : Txt} {c : Char} (hc : c ∈ pat) (ht : c ∉ t) : ¬ pat <:+: t :=
  fun h => ht (h.subset hc)

theorem free_digits {pat : Txt} (hc : 'p' ∈ pat) (n : Nat) : ¬ pat <:+: natText n := by
  apply free_chars hc
  intro h
  have := Nat.isDigit_of_mem_toDigits (by decide) (by decide) h
  exact absurd this (by decide)

instance (t : Txt) : Decidable (Plain t) := inferInstanceAs (Decidable (¬ _))
instance (t : Txt) : Decidable (Calm t) := inferInstanceAs (Decidable (_ ∧ _))

theorem plain_calm {t : Txt} (h : Plain t) : Calm t :=
  ⟨fun h' => h (List.IsInfix.trans (by decide) h'), fun h' => h (List.IsInfix.trans (by decide) h')⟩

/-! ### Commands -/

theorem has_iff {pat : String} {t : Txt} : has pat t = true ↔ pat.toList <:+: t := by
  simp [has]

theorem has_not {pat : String} {t : Txt} (h : ¬ pat.toList <:+: t) : ¬ has pat t = true := fun h' => h (has_iff.1 h')


theorem cmd_plain {s : Session} {t : Txt} (h : Plain t) (hv : s.valid = true) : cmd s t = { s with sent := s.sent ++ [t] } := by
  have hc := plain_calm h
  unfold cmd
  simp only [hv, Bool.not_true, Bool.false_eq_true, if_false]
  rw [if_neg (has_not hc.1), if_neg (has_not hc.2), if_neg (has_not h)]

theorem cmds_plain : ∀ (ls : List Txt) (s : Session), (∀ t ∈ ls, Plain t) → s.valid = true →
    cmds s ls = { s with sent := s.sent ++ ls } := by
  intro ls
  induction ls with
  | nil => intro s _ _; simp [cmds]
  | cons t ls ih =>
    intro s h hv
    show cmds (cmd s t) ls = _
    rw [cmd_plain (h t (by simp)) hv]
    have := ih { s with sent := s.sent ++ [t] } (fun t ht => h t (by simp [ht])) hv
    rw [this]
    simp

/-- The lines of a quiet setting do not speak of plots. -/
theorem lines_plain (str : K → Txt) (term : Txt) (hs : ∀ k, Plain (str k)) (ht : Plain term) (c : Setting K)
    (hq : QuietSetting c) : ∀ t ∈ lines str term c, Plain t := by
  have D : ∀ n, Plain (natText n) := fun n => free_digits (by decide) n
  have Q : ∀ (a t : Txt), a.getLast? = some '"' → Plain a → Plain t → Plain (a ++ t ++ "\"".toList) := fun a t h1 h2 h3 =>
    free_right (c := '"') rfl (by decide) (free_left h1 (by decide) h2 h3) (by decide)
  have L : ∀ (a t : Txt), a.getLast? = some ' ' → Plain a → Plain t → Plain (a ++ t) := fun a t h1 h2 h3 =>
    free_left h1 (by decide) h2 h3
  have one : ∀ u : Txt, Plain u → ∀ t ∈ [u], Plain t := fun u h t ht => by rw [List.mem_singleton.1 ht]; exact h
  cases c with
  | raw line => exact fun t ht => by rw [List.mem_singleton.1 ht]; exact hq
  | showOnScreen =>
    show ∀ t ∈ [_, _], Plain t
    rintro t ht
    rcases List.mem_cons.1 ht with rfl | ht
    · decide
    · rw [List.mem_singleton.1 ht]; exact L _ _ rfl (by decide) ‹_›
  | saveTops name =>
    show ∀ t ∈ [_, _], Plain t
    rintro t ht
    rcases List.mem_cons.1 ht with rfl | ht
    · decide
    · rw [List.mem_singleton.1 ht]
      exact free_right (c := '.') rfl (by decide) (free_left (c := '"') rfl (by decide) (by decide) hq) (by decide)
  | pointSize k => exact one _ (L _ _ rfl (by decide) (hs k))
  | samples n => exact one _ (L _ _ rfl (by decide) (D n))
  | isosamples n => exact one _ (L _ _ rfl (by decide) (D n))
  | multiplot => exact hq.elim
  | noMultiplot => exact hq.elim
  | contour p =>
    rw [lines.eq_def]
    dsimp only
    split
    · exact one _ (by decide)
    · exact one _ (L _ _ rfl (by decide) hq)
  | legend p => exact one _ (L _ _ rfl (by decide) hq)
  | title t => exact one _ (Q _ _ rfl (by decide) hq)
  | label a t => cases a <;> exact one _ (Q _ _ rfl (by decide) hq)
  | range a lo hi =>
    refine one _ ?_
    have h1 : Plain ("set ".toList ++ a.text ++ "range[".toList) := by cases a <;> decide
    have h2 : Plain ("set ".toList ++ a.text ++ "range[".toList ++ str lo) :=
      free_left (c := '[') (by cases a <;> rfl) (by decide) h1 (hs lo)
    have h3 : Plain ("set ".toList ++ a.text ++ "range[".toList ++ str lo ++ ":".toList) :=
      free_right (c := ':') rfl (by decide) h2 (by decide)
    exact free_right (c := ']') rfl (by decide) (free_left (c := ':') (by rw [List.getLast?_append]; rfl) (by decide) h3 (hs hi)) (by decide)
  | autoscale a =>
    show ∀ t ∈ [_, _], Plain t
    rintro t ht
    rcases List.mem_cons.1 ht with rfl | ht
    · cases a <;> decide
    · rw [List.mem_singleton.1 ht]; cases a <;> decide
  | logscale a b => cases a <;> exact one _ (L _ _ rfl (by decide) (hs b))
  | noLogscale a => cases a <;> exact one _ (by decide)
  | grid => exact one _ (by decide)
  | noGrid => exact one _ (by decide)
  | hidden3d => exact one _ (by decide)
  | noHidden3d => exact one _ (by decide)
  | noContour => exact one _ (by decide)
  | surface => exact one _ (by decide)
  | noSurface => exact one _ (by decide)
  | noLegend => exact one _ (by decide)
  | noTitle => exact one _ (by decide)

theorem drawLine_eq (str : K → Txt) (s : Session) (title : Txt) (src : Source K) :
    drawLine str s title src = (if flat src then head2 s else head3 s) ++ picture str s.pstyle s.smooth title src := by
  cases src <;> by_cases h : title = [] <;> simp only [drawLine, flat, if_true, Bool.false_eq_true, if_false, picture,
    functionTitle, titleText, withText, List.append_assoc, natText, h] <;> rfl

theorem picture_free (str : K → Txt) (style smooth title pat : Txt) (hpat : pat = "replot".toList ∨ pat = "splot".toList)
    (hstr : ∀ k, ¬ pat <:+: str k) (h1 : ¬ pat <:+: style) (h2 : ¬ pat <:+: smooth) (h3 : ¬ pat <:+: title) (src : Source K)
    (hsrc : CalmSource src) : ¬ pat <:+: picture str style smooth title src := by
  have hcalm : ∀ {t}, Calm t → ¬ pat <:+: t := by
    intro t h
    rcases hpat with rfl | rfl
    · exact h.1
    · exact h.2
  have D : ∀ n, ¬ pat <:+: Nat.toDigits 10 n := fun n => free_digits (by rcases hpat with rfl | rfl <;> decide) n
  have L : ∀ {a b : Txt} (c : Char), a.getLast? = some c → c ∈ ([' ', '"', ':'] : List Char) → ¬ pat <:+: a → ¬ pat <:+: b →
      ¬ pat <:+: a ++ b := by
    intro a b c hl hc ha hb
    refine free_left hl ?_ ha hb
    fin_cases hc <;> rcases hpat with rfl | rfl <;> decide
  have R : ∀ {a b : Txt} (c : Char), b.head? = some c → c ∈ ([' ', '"', ':'] : List Char) → ¬ pat <:+: a → ¬ pat <:+: b →
      ¬ pat <:+: a ++ b := by
    intro a b c hl hc ha hb
    refine free_right hl ?_ ha hb
    fin_cases hc <;> rcases hpat with rfl | rfl <;> decide
  have lit : ∀ t : Txt, (¬ "replot".toList <:+: t ∧ ¬ "splot".toList <:+: t) → ¬ pat <:+: t := fun t h => hcalm h
  have F : ∀ f : Txt, ¬ pat <:+: f → ¬ pat <:+: functionTitle title f := by
    intro f hf
    unfold functionTitle
    split
    · exact hf
    · exact h3
  have T : ¬ pat <:+: (if title = [] then " notitle ".toList else " title \"".toList ++ title ++ "\" ".toList) := by
    split
    · exact lit _ (by decide)
    · exact R '"' rfl (by decide) (L '"' rfl (by decide) (lit _ (by decide)) h3) (lit _ (by decide))
  have W : ¬ pat <:+: (if smooth = [] then "with ".toList ++ style else "smooth ".toList ++ smooth) := by
    split
    · exact L ' ' rfl (by decide) (lit _ (by decide)) h1
    · exact L ' ' rfl (by decide) (lit _ (by decide)) h2
  have Tl : (if title = [] then " notitle ".toList else " title \"".toList ++ title ++ "\" ".toList).getLast? = some ' ' := by
    split
    · rfl
    · rw [List.getLast?_append]; rfl
  have Th : (if title = [] then " notitle ".toList else " title \"".toList ++ title ++ "\" ".toList).head? = some ' ' := by
    split <;> rfl
  have U : ∀ f : Txt, ¬ pat <:+: f → ¬ pat <:+: ['"'] ++ f ++ "\" using ".toList := fun f hf =>
    R '"' rfl (by decide) (L '"' rfl (by decide) (lit _ (by decide)) hf) (lit _ (by decide))
  have Ul : ∀ f : Txt, (['"'] ++ f ++ "\" using ".toList).getLast? = some ' ' := fun f => by rw [List.getLast?_append]; rfl
  have C : ∀ (a b : Txt), ¬ pat <:+: a → ¬ pat <:+: b → ¬ pat <:+: a ++ [':'] ++ b := fun a b ha hb =>
    L ':' (by rw [List.getLast?_append]; rfl) (by decide) (R ':' rfl (by decide) ha (lit _ (by decide))) hb
  cases src with
  | slope a b =>
    rw [picture]
    have f1 : ¬ pat <:+: str a ++ " * x + ".toList ++ str b :=
      L ' ' (by rw [List.getLast?_append]; rfl) (by decide) (R ' ' rfl (by decide) (hstr a) (lit _ (by decide))) (hstr b)
    have f2 : ¬ pat <:+: "f(x) = ".toList ++ str a ++ " * x + ".toList ++ str b :=
      L ' ' (by rw [List.getLast?_append]; rfl) (by decide)
        (R ' ' rfl (by decide) (L ' ' rfl (by decide) (lit _ (by decide)) (hstr a)) (lit _ (by decide))) (hstr b)
    exact L ' ' (by rw [List.getLast?_append]; rfl) (by decide) (R '"' rfl (by decide)
      (L '"' (by rw [List.getLast?_append]; rfl) (by decide) (R ' ' rfl (by decide) f1 (lit _ (by decide))) (F _ f2))
      (lit _ (by decide))) h1
  | equation e =>
    rw [picture]
    exact L ' ' (by rw [List.getLast?_append]; rfl) (by decide) (R '"' rfl (by decide)
      (L '"' (by rw [List.getLast?_append]; rfl) (by decide) (R ' ' rfl (by decide) (hcalm hsrc) (lit _ (by decide)))
        (F _ (L ' ' rfl (by decide) (lit _ (by decide)) (hcalm hsrc)))) (lit _ (by decide))) h1
  | equation3d e =>
    rw [picture]
    exact L ' ' (by rw [List.getLast?_append]; rfl) (by decide) (R '"' rfl (by decide)
      (L '"' (by rw [List.getLast?_append]; rfl) (by decide) (R ' ' rfl (by decide) (hcalm hsrc) (lit _ (by decide)))
        (F _ (L ' ' rfl (by decide) (lit _ (by decide)) (hcalm hsrc)))) (lit _ (by decide))) h1
  | fileX f c =>
    rw [picture]
    exact L ' ' (by rw [List.getLast?_append, Tl]; rfl) (by decide)
      (R ' ' Th (by decide) (L ' ' (Ul f) (by decide) (U f (hcalm hsrc)) (D c)) T) W
  | fileXY f cx cy =>
    rw [picture]
    exact L ' ' (by rw [List.getLast?_append, Tl]; rfl) (by decide)
      (R ' ' Th (by decide) (C _ _ (L ' ' (Ul f) (by decide) (U f (hcalm hsrc)) (D cx)) (D cy)) T) W
  | fileXYErr f cx cy cd =>
    rw [picture]
    exact R ' ' Th (by decide) (R ' ' rfl (by decide)
      (C _ _ (C _ _ (L ' ' (Ul f) (by decide) (U f (hcalm hsrc)) (D cx)) (D cy)) (D cd)) (lit _ (by decide))) T
  | fileXYZ f cx cy cz =>
    rw [picture]
    have Z : ¬ pat <:+: (if title = [] then " notitle with ".toList else " title \"".toList ++ title ++ "\" with ".toList) := by
      split
      · exact lit _ (by decide)
      · exact R '"' rfl (by decide) (L '"' rfl (by decide) (lit _ (by decide)) h3) (lit _ (by decide))
    have Zh : (if title = [] then " notitle with ".toList else " title \"".toList ++ title ++ "\" with ".toList).head? = some ' ' := by
      split <;> rfl
    have Zl : (if title = [] then " notitle with ".toList else " title \"".toList ++ title ++ "\" with ".toList).getLast? =
        some ' ' := by
      split
      · rfl
      · rw [List.getLast?_append]; rfl
    exact L ' ' (by rw [List.getLast?_append, Zl]; rfl) (by decide) (R ' ' Zh (by decide)
      (C _ _ (C _ _ (L ' ' (Ul f) (by decide) (U f (hcalm hsrc)) (D cx)) (D cy)) (D cz)) Z) h1
  | image f =>
    rw [picture]
    have Z : ¬ pat <:+: (if title = [] then "\" with image".toList else "\" title \"".toList ++ title ++ "\" with image".toList) := by
      split
      · exact lit _ (by decide)
      · exact R '"' rfl (by decide) (L '"' rfl (by decide) (lit _ (by decide)) h3) (lit _ (by decide))
    have Zh : (if title = [] then "\" with image".toList else "\" title \"".toList ++ title ++ "\" with image".toList).head? =
        some '"' := by split <;> rfl
    exact R '"' Zh (by decide) (L '"' rfl (by decide) (lit _ (by decide)) (hcalm hsrc)) Z

theorem cmd_replot {s : Session} {t : Txt} (hv : s.valid = true) :
    cmd s ("replot ".toList ++ t) = { s with sent := s.sent ++ ["replot ".toList ++ t] } := by
  unfold cmd
  simp only [hv, Bool.not_true, Bool.false_eq_true, if_false]
  rw [if_pos (has_iff.2 (⟨[], ' ' :: t, rfl⟩ : "replot".toList <:+: "replot ".toList ++ t))]

theorem cmd_plot {s : Session} {t : Txt} (hv : s.valid = true) (ht : Calm t) :
    cmd s ("plot ".toList ++ t) = { s with sent := s.sent ++ ["plot ".toList ++ t], twoDim := true, nplots := s.nplots + 1 } := by
  unfold cmd
  simp only [hv, Bool.not_true, Bool.false_eq_true, if_false]
  rw [if_neg (has_not <| free_left (c := ' ') rfl (by decide) (by decide) ht.1 (pat := "replot".toList) (a := "plot ".toList)),
    if_neg (has_not <| free_left (c := ' ') rfl (by decide) (by decide) ht.2 (pat := "splot".toList) (a := "plot ".toList)),
    if_pos (has_iff.2 (⟨[], ' ' :: t, rfl⟩ : "plot".toList <:+: "plot ".toList ++ t))]

theorem cmd_splot {s : Session} {t : Txt} (hv : s.valid = true) (ht : Calm t) :
    cmd s ("splot ".toList ++ t) = { s with sent := s.sent ++ ["splot ".toList ++ t], twoDim := false, nplots := s.nplots + 1 } := by
  unfold cmd
  simp only [hv, Bool.not_true, Bool.false_eq_true, if_false]
  rw [if_neg (has_not <| free_left (c := ' ') rfl (by decide) (by decide) ht.1 (pat := "replot".toList) (a := "splot ".toList)),
    if_pos (has_iff.2 (⟨[], ' ' :: t, rfl⟩ : "splot".toList <:+: "splot ".toList ++ t))]

theorem cmd_sent (s : Session) (hv : s.valid = true) (t : Txt) : (cmd s t).sent = s.sent ++ [t] := by
  unfold cmd
  simp only [hv, Bool.not_true, Bool.false_eq_true, if_false]
  split
  · rfl
  · split
    · rfl
    · split <;> rfl

theorem draw_ok {str : K → Txt} {e : Env K} {s s' : Session} {src : Source K} {title : Txt}
    (h : draw str e s src title = .ok s') : s' = cmd s (drawLine str s title src) := by
  unfold draw at h
  split at h
  · cases h; rfl
  · split at h
    · cases h; rfl
    · cases h

theorem vectors_ok {str : K → Txt} {e e' : Env K} {s s' : Session} {mk : Option Txt} {v : Vectors K} {title : Txt}
    (h : drawVectors str e s mk v title = .ok (e', s')) : v.check = true ∧ e.num ≠ 63 ∧ ∃ name, mk = some name ∧
      name ∉ e.files.map (·.name) ∧ e' = ⟨e.files ++ [⟨name, true, v.rows⟩], e.num + 1, e.fds + 1⟩ ∧
      s' = cmd { s with tmpfiles := s.tmpfiles ++ [name] } (drawLine str s title (readBack name v)) := by
  unfold drawVectors at h
  by_cases hc : v.check = true
  · rw [if_pos hc] at h
    obtain ⟨⟨e1, s1, name⟩, h1, h2⟩ := Aos.bind_inv h
    obtain ⟨s2, h3, h4⟩ := Aos.bind_inv h2
    unfold createTmp at h1
    by_cases hn : e.num = 64 - 1
    · rw [if_pos hn] at h1; cases h1
    · rw [if_neg hn] at h1
      cases mk with
      | none => cases h1
      | some nm =>
        simp only at h1
        by_cases hm : nm ∈ e.files.map (·.name)
        · rw [if_pos hm] at h1; cases h1
        · rw [if_neg hm] at h1
          cases h1
          cases h4
          refine ⟨hc, by simpa using hn, _, rfl, hm, rfl, ?_⟩
          rw [draw_ok h3]
          cases v <;> rfl
  · rw [if_neg hc] at h; cases h

end MLTK.Gp
