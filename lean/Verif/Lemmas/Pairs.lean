import Verif.Spec.Pairs
import Verif.Model.SpecialBoot
import Verif.Lemmas.Groups
import Verif.Lemmas.RelBoot

set_option linter.unusedSectionVars false

namespace Lemmas
open Np NDArr Spec Model

variable {K : Type} [Field K] [LinearOrder K] [IsStrictOrderedRing K]

/-! ### sums -/

theorem zipWith_proj {α β γ δ : Type} (g : α → β) (h : α → γ) (f : β → γ → δ) (P : List α) :
    List.zipWith f (P.map g) (P.map h) = P.map fun p => f (g p) (h p) := by
  rw [List.zipWith_map, List.zipWith_self]

theorem codev_comm {α : Type} (g h : α → K) (P : List α) : codev g h P = codev h g P := by
  unfold codev; congr 1; apply List.map_congr_left; intro p _; ring

theorem codev_perm {α : Type} (g h : α → K) {P Q : List α} (hp : P.Perm Q) :
    codev g h P = codev g h Q := by
  unfold codev avg
  rw [(hp.map g).sum_eq, (hp.map h).sum_eq, (hp.map g).length_eq, (hp.map h).length_eq]
  exact (hp.map _).sum_eq

theorem sum_map_nonneg {α : Type} (g : α → K) (P : List α) (h : ∀ p ∈ P, 0 ≤ g p) :
    0 ≤ (P.map g).sum := by
  apply List.sum_nonneg
  intro x hx
  obtain ⟨p, hp, rfl⟩ := List.mem_map.1 hx
  exact h p hp

theorem codev_self_nonneg {α : Type} (g : α → K) (P : List α) : 0 ≤ codev g g P := by
  unfold codev; exact sum_map_nonneg _ _ fun p _ => mul_self_nonneg _

theorem cauchy {α : Type} (u v : α → K) (P : List α) :
    (P.map fun p => u p * v p).sum ^ 2 ≤ (P.map fun p => u p * u p).sum * (P.map fun p => v p * v p).sum := by
  set a := (P.map fun p => u p * u p).sum with ha
  set b := (P.map fun p => v p * v p).sum with hb
  set c := (P.map fun p => u p * v p).sum with hc
  have key : ∀ s t : K, (P.map fun p => (s * u p + t * v p) * (s * u p + t * v p)).sum =
      s * s * a + 2 * s * t * c + t * t * b := by
    intro s t
    rw [ha, hb, hc]
    clear ha hb hc a b c
    induction P with
    | nil => simp
    | cons p P ih => simp only [List.map_cons, List.sum_cons, ih]; ring
  have hnn : ∀ s t : K, 0 ≤ s * s * a + 2 * s * t * c + t * t * b := by
    intro s t; rw [← key]; exact sum_map_nonneg _ _ fun p _ => mul_self_nonneg _
  have ha0 : 0 ≤ a := sum_map_nonneg _ _ fun p _ => mul_self_nonneg _
  have hb0 : 0 ≤ b := sum_map_nonneg _ _ fun p _ => mul_self_nonneg _
  rcases eq_or_lt_of_le ha0 with h0 | h0
  · have h1 := hnn (-(b + 1) * c) (c * c)
    rw [← h0] at h1 ⊢
    have h2 : c = 0 := by
      by_contra hne
      have : 0 < c * c := mul_self_pos.2 hne
      nlinarith [mul_pos this this, mul_nonneg hb0 (mul_pos this this).le]
    rw [h2]; simp
  · have h1 := hnn (-c) a
    have : 0 ≤ a * (a * b - c ^ 2) := by nlinarith
    nlinarith [nonneg_of_mul_nonneg_right this h0]

/-! ### the correlation of number pairs -/

theorem cov_some {α : Type} (g h : α → K) (P : List α) (hn : 2 ≤ P.length) :
    cov (P.map fun p => some (g p)) (P.map fun p => some (h p)) =
      some (codev g h P / ((P.length : K) - 1)) := by
  have hne : P ≠ [] := by rintro rfl; simp at hn
  have hm : ∀ k : α → K, mean (P.map fun p => some (k p)) = some (avg (P.map k)) := by
    intro k
    have := mean_some (P.map k) (by simpa using hne)
    rw [List.map_map] at this
    exact this
  unfold cov
  rw [if_neg (by rw [List.length_map]; omega), hm, hm, zipWith_proj]
  have : (P.map fun p => Fl.mul (Fl.sub (some (g p)) (some (avg (P.map g))))
      (Fl.sub (some (h p)) (some (avg (P.map h))))) =
      (P.map fun p => (g p - avg (P.map g)) * (h p - avg (P.map h))).map some := by
    rw [List.map_map]; rfl
  rw [this, fsum_some, List.length_map]
  have hpos : ((P.length : K) - 1) ≠ 0 := by
    have : (2 : K) ≤ P.length := by exact_mod_cast hn
    intro h0; linarith
  show (if _ then _ else _) = _
  rw [if_neg hpos]
  rfl

theorem codev_short {α : Type} (g h : α → K) (P : List α) (hn : P.length ≤ 1) : codev g h P = 0 := by
  match P, hn with
  | [], _ => rfl
  | [p], _ => simp [codev, avg]

theorem isSqrt_zero {s : K → K} (hs : IsSqrt s) : s 0 = 0 := by
  have := hs.sq 0 le_rfl
  simpa using this

/-- the value of `np.corrcoef` on numbers -/
theorem corrcoef_some {s : K → K} (hs : IsSqrt s) (P : List (K × K)) :
    (codev Prod.fst Prod.fst P = 0 ∨ codev Prod.snd Prod.snd P = 0 →
      corrcoef s (P.map fun p => some p.1) (P.map fun p => some p.2) = none) ∧
    (codev Prod.fst Prod.fst P ≠ 0 → codev Prod.snd Prod.snd P ≠ 0 →
      ∃ r, corrcoef s (P.map fun p => some p.1) (P.map fun p => some p.2) = some r ∧
        IsPearson P r) := by
  have hx0 := codev_self_nonneg Prod.fst P
  have hy0 := codev_self_nonneg Prod.snd P
  rcases Nat.lt_or_ge P.length 2 with hn | hn
  · have e : codev Prod.fst Prod.fst P = 0 := codev_short _ _ _ (by omega)
    refine ⟨fun _ => ?_, fun h => absurd e h⟩
    unfold corrcoef cov
    rw [if_pos (by rw [List.length_map]; omega)]
    rfl
  have hn1 : (0 : K) < (P.length : K) - 1 := by
    have : (2 : K) ≤ P.length := by exact_mod_cast hn
    linarith
  unfold corrcoef
  rw [cov_some Prod.fst Prod.snd P hn, cov_some Prod.fst Prod.fst P hn,
    cov_some Prod.snd Prod.snd P hn]
  set sxx := codev Prod.fst Prod.fst P
  set syy := codev Prod.snd Prod.snd P
  set sxy := codev Prod.fst Prod.snd P with hsxy
  set m := (P.length : K) - 1
  simp only [Fl.sqrt]
  rw [if_pos (div_nonneg hx0 hn1.le), if_pos (div_nonneg hy0 hn1.le)]
  constructor
  · rintro (h | h)
    · rw [h, zero_div, isSqrt_zero hs]
      have : Fl.div (some (sxy / m)) (some (0 : K)) = none := by simp [Fl.div]
      rw [this]; rfl
    · rw [h, zero_div, isSqrt_zero hs]
      have : ∀ z : Fl K, Fl.div z (some (0 : K)) = none := by
        intro z; cases z <;> simp [Fl.div]
      rw [this]; rfl
  · intro h1 h2
    have hxp : 0 < sxx := lt_of_le_of_ne hx0 (Ne.symm h1)
    have hyp : 0 < syy := lt_of_le_of_ne hy0 (Ne.symm h2)
    set a := s (sxx / m) with hadef
    set b := s (syy / m) with hbdef
    have ha := hs.sq (sxx / m) (div_nonneg hx0 hn1.le)
    have hb := hs.sq (syy / m) (div_nonneg hy0 hn1.le)
    rw [← hadef] at ha
    rw [← hbdef] at hb
    have hxm : 0 < sxx / m := div_pos hxp hn1
    have hym : 0 < syy / m := div_pos hyp hn1
    have ha0 : a ≠ 0 := by intro h; rw [h] at ha; simp at ha; exact hxm.ne ha
    have hb0 : b ≠ 0 := by intro h; rw [h] at hb; simp at hb; exact hym.ne hb
    have hap : 0 < a := lt_of_le_of_ne (hs.nonneg _ hxm.le) (Ne.symm ha0)
    have hbp : 0 < b := lt_of_le_of_ne (hs.nonneg _ hym.le) (Ne.symm hb0)
    have e1 : Fl.div (Fl.div (some (sxy / m)) (some a)) (some b) = some (sxy / m / a / b) := by
      simp [Fl.div, ha0, hb0]
    rw [e1]
    set r := sxy / m / a / b with hr
    have hr2 : r ^ 2 * (sxx * syy) = sxy ^ 2 := by
      have hx' : sxx = a * a * m := by rw [ha]; field_simp
      have hy' : syy = b * b * m := by rw [hb]; field_simp
      have hm' : m ≠ 0 := hn1.ne'
      rw [hx', hy', hr]
      field_simp
    have hr0 : 0 ≤ r * sxy := by
      have : r * sxy = sxy ^ 2 / (m * a * b) := by
        rw [hr]; field_simp
      rw [this]; positivity
    have hcs : sxy ^ 2 ≤ sxx * syy := cauchy (fun p : K × K => p.1 - avg (P.map Prod.fst))
      (fun p => p.2 - avg (P.map Prod.snd)) P
    have hb1 : r ^ 2 ≤ 1 := by
      have hp : 0 < sxx * syy := mul_pos hxp hyp
      by_contra hc
      have := mul_lt_mul_of_pos_right (lt_of_not_ge hc) hp
      linarith
    have hr1 := abs_le.1 ((sq_le_one_iff_abs_le_one r).1 hb1)
    refine ⟨r, ?_, hr2, hr0⟩
    show some (max (-1) (min r 1)) = some r
    rw [min_eq_left hr1.2, max_eq_right hr1.1]

theorem isPearson_bound {P : List (K × K)} {r : K} (h : IsPearson P r)
    (h1 : codev Prod.fst Prod.fst P ≠ 0) (h2 : codev Prod.snd Prod.snd P ≠ 0) : -1 ≤ r ∧ r ≤ 1 := by
  have hxp := lt_of_le_of_ne (codev_self_nonneg Prod.fst P) (Ne.symm h1)
  have hyp := lt_of_le_of_ne (codev_self_nonneg Prod.snd P) (Ne.symm h2)
  have hcs : codev Prod.fst Prod.snd P ^ 2 ≤ codev Prod.fst Prod.fst P * codev Prod.snd Prod.snd P :=
    cauchy (fun p : K × K => p.1 - avg (P.map Prod.fst)) (fun p => p.2 - avg (P.map Prod.snd)) P
  have hp := mul_pos hxp hyp
  have hb1 : r ^ 2 ≤ 1 := by
    by_contra hc
    have := mul_lt_mul_of_pos_right (lt_of_not_ge hc) hp
    linarith [h.1]
  exact abs_le.1 ((sq_le_one_iff_abs_le_one r).1 hb1)

theorem isPearson_unique {P : List (K × K)} {r r' : K} (h : IsPearson P r) (h' : IsPearson P r')
    (h1 : codev Prod.fst Prod.fst P ≠ 0) (h2 : codev Prod.snd Prod.snd P ≠ 0) : r = r' := by
  have hp : codev Prod.fst Prod.fst P * codev Prod.snd Prod.snd P ≠ 0 := mul_ne_zero h1 h2
  have hsq : r ^ 2 = r' ^ 2 := mul_right_cancel₀ hp (h.1.trans h'.1.symm)
  rcases eq_or_eq_neg_of_sq_eq_sq r r' hsq with e | e
  · exact e
  · have a := h.2
    have b := h'.2
    rw [e] at a
    have hz : r' * codev Prod.fst Prod.snd P = 0 := by nlinarith
    rcases mul_eq_zero.1 hz with z | z
    · rw [e, z]; simp
    · have := h'.1
      rw [z] at this
      have hr0 : r' = 0 := by
        have : r' ^ 2 = 0 := by
          rcases mul_eq_zero.1 (this.trans (by ring : (0:K)^2 = 0)) with q | q
          · exact q
          · exact absurd q hp
        exact pow_eq_zero_iff (n := 2) (by norm_num) |>.1 this
      rw [e, hr0]; simp

/-! ### complete pairs -/

theorem complete_perm {P Q : List (Fl K × Fl K)} (h : P.Perm Q) : (complete P).Perm (complete Q) :=
  h.filterMap _

theorem filter_complete (P : List (Fl K × Fl K)) :
    (P.filter fun p => p.1.isSome && p.2.isSome) = (complete P).map fun p => (some p.1, some p.2) := by
  induction P with
  | nil => rfl
  | cons p P ih =>
    obtain ⟨x, y⟩ := p
    cases x <;> cases y <;> simp_all [complete]

theorem eq_complete {P : List (Fl K × Fl K)} (h : ¬∃ p ∈ P, p.1 = none ∨ p.2 = none) :
    P = (complete P).map fun p => (some p.1, some p.2) := by
  rw [← filter_complete]
  symm
  rw [List.filter_eq_self]
  intro p hp
  obtain ⟨x, y⟩ := p
  cases x with
  | none => exact absurd ⟨_, hp, Or.inl rfl⟩ h
  | some x => cases y with
    | none => exact absurd ⟨_, hp, Or.inr rfl⟩ h
    | some y => rfl

theorem cov_none_of_mem {x : List (Fl K)} (h : none ∈ x) : cov x x = none := by
  unfold cov
  split
  · rfl
  · rw [mean_none h, fsum_none]
    · rfl
    · rw [List.zipWith_self]
      exact List.mem_map.2 ⟨none, h, rfl⟩

/-- `_func_corr` computes the correlation of the pairs of its two slices -/
theorem isCorr_of_zip {s : K → K} (hs : IsSqrt s) (x y : List (Fl K)) (hl : x.length = y.length) :
    IsCorr false (x.zip y) (corrcoef s x y) ∧
      IsCorr true (x.zip y) (corrcoef s (dropNanPairs x y).1 (dropNanPairs x y).2) := by
  have hx : (x.zip y).map Prod.fst = x := List.map_fst_zip (by omega)
  have hy : (x.zip y).map Prod.snd = y := List.map_snd_zip (by omega)
  have hmain : ∀ P : List (K × K), ∀ skip, ∀ Q : List (Fl K × Fl K), complete Q = P →
      ¬(skip = false ∧ ∃ p ∈ Q, p.1 = none ∨ p.2 = none) →
      IsCorr skip Q (corrcoef s (P.map fun p => some p.1) (P.map fun p => some p.2)) := by
    intro P skip Q hQ hn
    unfold IsCorr
    rw [hQ]
    obtain ⟨c1, c2⟩ := corrcoef_some hs P
    by_cases h0 : codev Prod.fst Prod.fst P = 0 ∨ codev Prod.snd Prod.snd P = 0
    · rw [if_pos (Or.inr h0)]; exact c1 h0
    · rw [if_neg (by rintro (h | h); exacts [hn h, h0 h])]
      rw [not_or] at h0
      exact c2 h0.1 h0.2
  constructor
  · by_cases hn : ∃ p ∈ x.zip y, p.1 = none ∨ p.2 = none
    · unfold IsCorr
      rw [if_pos (Or.inl ⟨rfl, hn⟩)]
      obtain ⟨p, hp, h | h⟩ := hn
      · have : none ∈ x := by rw [← hx]; exact List.mem_map.2 ⟨p, hp, h⟩
        unfold corrcoef
        rw [cov_none_of_mem this]
        have e : ∀ z : Fl K, Fl.div z (Fl.sqrt s none) = none := by intro z; cases z <;> rfl
        rw [e]; rfl
      · have : none ∈ y := by rw [← hy]; exact List.mem_map.2 ⟨p, hp, h⟩
        unfold corrcoef
        rw [cov_none_of_mem this]
        have e : ∀ z : Fl K, Fl.div z (Fl.sqrt s none) = none := by intro z; cases z <;> rfl
        rw [e]; rfl
    · have e := eq_complete hn
      have hx' : x = (complete (x.zip y)).map fun p => some p.1 := by
        conv_lhs => rw [← hx, e, List.map_map]
        rfl
      have hy' : y = (complete (x.zip y)).map fun p => some p.2 := by
        conv_lhs => rw [← hy, e, List.map_map]
        rfl
      have := hmain (complete (x.zip y)) false (x.zip y) rfl (fun h => hn h.2)
      rw [← hx', ← hy'] at this
      exact this
  · have := hmain (complete (x.zip y)) true (x.zip y) rfl (by simp)
    unfold dropNanPairs
    rw [filter_complete, List.unzip_eq_map, List.map_map, List.map_map]
    exact this

theorem isCorr_perm {skip : Bool} {P Q : List (Fl K × Fl K)} (h : P.Perm Q) {v : Fl K}
    (hv : IsCorr skip P v) : IsCorr skip Q v := by
  have hc := complete_perm h
  have e : (∃ p ∈ P, p.1 = none ∨ p.2 = none) ↔ (∃ p ∈ Q, p.1 = none ∨ p.2 = none) := by
    constructor
    · rintro ⟨p, hp, hx⟩; exact ⟨p, h.mem_iff.1 hp, hx⟩
    · rintro ⟨p, hp, hx⟩; exact ⟨p, h.mem_iff.2 hp, hx⟩
  unfold IsCorr IsPearson at *
  rw [codev_perm _ _ hc, codev_perm _ _ hc] at hv
  simp only [codev_perm Prod.fst Prod.snd hc] at hv
  simp only [e] at hv
  exact hv

theorem isCorr_unique {skip : Bool} {P : List (Fl K × Fl K)} {v w : Fl K}
    (hv : IsCorr skip P v) (hw : IsCorr skip P w) : v = w := by
  unfold IsCorr at *
  split at hv
  · rw [hv]
    split at hw
    · exact hw.symm
    · contradiction
  · rename_i hn
    rw [if_neg hn] at hw
    obtain ⟨r, rfl, hr⟩ := hv
    obtain ⟨r', rfl, hr'⟩ := hw
    rw [not_or, not_or] at hn
    rw [isPearson_unique hr hr' hn.2.1 hn.2.2]

end Lemmas
