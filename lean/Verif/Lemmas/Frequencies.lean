import Verif.Spec.Frequencies
import Verif.Lemmas.Shuffle

/-! The functions of an ensemble depend on the relative frequencies of the members only. -/

set_option linter.unusedSectionVars false

namespace Lemmas
open Np NDArr Spec Model

variable {K : Type} [Field K] [LinearOrder K] [IsStrictOrderedRing K] {α β : Type}
variable {f g o : NDArr (Fl K)} {ax : Int}

/-- the list `n` times -/
def copies (n : Nat) (l : List α) : List α := (List.replicate n l).flatten

theorem copies_succ (n : Nat) (l : List α) : copies (n + 1) l = l ++ copies n l := by
  simp [copies, List.replicate_succ]

theorem copies_zero (l : List α) : copies 0 l = [] := rfl

theorem copies_one (l : List α) : copies 1 l = l := by simp [copies]

theorem length_copies (n : Nat) (l : List α) : (copies n l).length = n * l.length := by
  induction n with
  | zero => simp [copies_zero]
  | succ n ih => rw [copies_succ, List.length_append, ih]; ring

theorem countP_copies (p : α → Bool) (n : Nat) (l : List α) : (copies n l).countP p = n * l.countP p := by
  induction n with
  | zero => simp [copies_zero]
  | succ n ih => rw [copies_succ, List.countP_append, ih]; ring

theorem map_copies (F : α → β) (n : Nat) (l : List α) : (copies n l).map F = copies n (l.map F) := by
  induction n with
  | zero => rfl
  | succ n ih => rw [copies_succ, copies_succ, List.map_append, ih]

theorem filter_copies (p : α → Bool) (n : Nat) (l : List α) : (copies n l).filter p = copies n (l.filter p) := by
  induction n with
  | zero => rfl
  | succ n ih => rw [copies_succ, copies_succ, List.filter_append, ih]

theorem filterMap_copies (F : α → Option β) (n : Nat) (l : List α) :
    (copies n l).filterMap F = copies n (l.filterMap F) := by
  induction n with
  | zero => rfl
  | succ n ih => rw [copies_succ, copies_succ, List.filterMap_append, ih]

theorem copies_eq_nil {n : Nat} (hn : 0 < n) {l : List α} : copies n l = [] ↔ l = [] := by
  rw [← List.length_eq_zero_iff, length_copies, ← List.length_eq_zero_iff (l := l)]
  simp [hn.ne']

theorem mem_copies {n : Nat} (hn : 0 < n) {l : List α} {x : α} : x ∈ copies n l ↔ x ∈ l := by
  simp [copies, List.mem_flatten, List.mem_replicate, hn.ne']

/-- equal shares are equal multiples -/
theorem shares_copies {l m : List (Fl K)} (h : SameShares l m) :
    ∃ n k, 0 < n ∧ 0 < k ∧ (copies n l).Perm (copies k m) := by
  by_cases hl : l = []
  · have hm := h.1.1 hl
    subst hl hm
    exact ⟨1, 1, by simp, by simp, .refl _⟩
  · have hm : m ≠ [] := fun e => hl (h.1.2 e)
    refine ⟨m.length, l.length, List.length_pos_iff.2 hm, List.length_pos_iff.2 hl, ?_⟩
    rw [List.perm_iff_count]
    intro x
    have := h.2 x
    simp only [List.count] at this ⊢
    rw [countP_copies, countP_copies]
    linarith

theorem copies_shares {n k : Nat} (hn : 0 < n) (hk : 0 < k) {l m : List (Fl K)} (h : (copies n l).Perm (copies k m)) :
    SameShares l m := by
  refine ⟨(copies_eq_nil hn).symm.trans ((nil_shuffle h).trans (copies_eq_nil hk)), fun x => ?_⟩
  have h1 := h.length_eq
  have h2 := h.countP_eq (· == x)
  rw [length_copies, length_copies] at h1
  rw [countP_copies, countP_copies] at h2
  simp only [List.count]
  have : n * k * (l.countP (· == x) * m.length) = n * k * (m.countP (· == x) * l.length) := by
    calc _ = (n * l.countP (· == x)) * (k * m.length) := by ring
      _ = (k * m.countP (· == x)) * (n * l.length) := by rw [h2, h1]
      _ = _ := by ring
  exact Nat.eq_of_mul_eq_mul_left (Nat.mul_pos hn hk) this

/-- a function that does not see the order and copying depends on the shares only -/
theorem of_copies {γ : Type} {F : List (Fl K) → γ} (hp : ∀ l m, l.Perm m → F l = F m)
    (hc : ∀ n l, 0 < n → F (copies n l) = F l) {l m : List (Fl K)} (h : SameShares l m) : F l = F m := by
  obtain ⟨n, k, hn, hk, hlm⟩ := shares_copies h
  rw [← hc n l hn, ← hc k m hk, hp _ _ hlm]

theorem shares_perm {l m : List (Fl K)} (h : l.Perm m) : SameShares l m :=
  copies_shares (n := 1) (k := 1) (by simp) (by simp) (by rw [copies_one, copies_one]; exact h)

theorem _root_.Spec.Shuffled.frequencies (h : Shuffled ax f g) : SameFrequencies ax f g :=
  ⟨by rw [h.shape], by rw [h.shape], fun k hk => shares_perm (h.members k hk).symm⟩

/-! ### scalar reductions -/

theorem fsum_append (l m : List (Fl K)) : fsum (l ++ m) = Fl.add (fsum l) (fsum m) := by
  induction l with
  | nil => rw [List.nil_append]; cases h : fsum m <;> simp [fsum]
  | cons a l ih =>
    have e : ∀ x (l : List (Fl K)), fsum (x :: l) = Fl.add x (fsum l) := fun _ _ => rfl
    rw [List.cons_append, e, e, ih]
    cases a <;> cases fsum l <;> cases fsum m <;> simp [add_assoc]

theorem fsum_copies (n : Nat) (hn : 0 < n) (l : List (Fl K)) : fsum (copies n l) = Fl.mul (some (n : K)) (fsum l) := by
  induction n with
  | zero => cases hn
  | succ n ih =>
    rcases Nat.eq_zero_or_pos n with rfl | h
    · rw [copies_one]
      cases fsum l with
      | none => rfl
      | some v => simp
    · rw [copies_succ, fsum_append, ih h]
      cases fsum l with
      | none => rfl
      | some v => simp; ring

theorem mean_copies (n : Nat) (l : List (Fl K)) (hn : 0 < n) : mean (copies n l) = mean l := by
  unfold mean
  rw [fsum_copies n hn, length_copies]
  by_cases hl : l = []
  · rw [if_pos hl, if_pos ((copies_eq_nil hn).2 hl)]
  · rw [if_neg hl, if_neg fun e => hl ((copies_eq_nil hn).1 e)]
    have h1 : (n : K) ≠ 0 := by exact_mod_cast hn.ne'
    have h2 : (l.length : K) ≠ 0 := by exact_mod_cast (List.length_pos_iff.2 hl).ne'
    cases fsum l with
    | none => rfl
    | some v =>
      simp [Nat.cast_mul, h1, mul_div_mul_left]

theorem mean_share {l m : List (Fl K)} (h : SameShares l m) : mean l = mean m :=
  of_copies (fun _ _ => mean_shuffle) mean_copies h

theorem nanmean_share {l m : List (Fl K)} (h : SameShares l m) : nanmean l = nanmean m :=
  of_copies (fun _ _ => nanmean_shuffle) (fun n l hn => by
    unfold nanmean
    rw [filter_copies, mean_copies _ _ hn]) h

theorem npVar_share {l m : List (Fl K)} (h : SameShares l m) : npVar l = npVar m :=
  of_copies (fun _ _ => npVar_shuffle) (fun n l hn => by
    unfold npVar
    rw [mean_copies _ _ hn, map_copies, mean_copies _ _ hn]) h

theorem foldl_assoc {op : Fl K → Fl K → Fl K} (h3 : ∀ x y z, op (op x y) z = op x (op y z)) (l : List (Fl K)) (x y : Fl K) :
    l.foldl op (op x y) = op x (l.foldl op y) := by
  induction l generalizing y with
  | nil => rfl
  | cons a l ih => rw [List.foldl_cons, List.foldl_cons, h3, ih]

theorem fold1_append {op : Fl K → Fl K → Fl K} (h3 : ∀ x y z, op (op x y) z = op x (op y z)) {l m : List (Fl K)}
    {u v : Fl K} (hl : fold1 op l = some u) (hm : fold1 op m = some v) : fold1 op (l ++ m) = some (op u v) := by
  cases l with
  | nil => cases hl
  | cons a l =>
    cases m with
    | nil => cases hm
    | cons b m =>
      simp only [fold1, Option.some.injEq] at hl hm
      subst hl hm
      rw [List.cons_append, fold1, List.foldl_append, List.foldl_cons, foldl_assoc h3]

theorem fold1_copies {op : Fl K → Fl K → Fl K} (h3 : ∀ x y z, op (op x y) z = op x (op y z)) (h1 : ∀ x, op x x = x)
    (n : Nat) (l : List (Fl K)) (hn : 0 < n) : fold1 op (copies n l) = fold1 op l := by
  cases hl : fold1 op l with
  | none =>
    have : l = [] := by cases l with
      | nil => rfl
      | cons => cases hl
    subst this
    rw [(copies_eq_nil hn).2 rfl]
    rfl
  | some u =>
    induction n with
    | zero => cases hn
    | succ n ih =>
      rcases Nat.eq_zero_or_pos n with rfl | h
      · rw [copies_one, hl]
      · rw [copies_succ, fold1_append h3 hl (ih h), h1]

theorem flMax_assoc (x y z : Fl K) : Fl.max (Fl.max x y) z = Fl.max x (Fl.max y z) := by
  cases x <;> cases y <;> cases z <;> simp [Fl.max, max_assoc]

theorem flMin_assoc (x y z : Fl K) : Fl.min (Fl.min x y) z = Fl.min x (Fl.min y z) := by
  cases x <;> cases y <;> cases z <;> simp [Fl.min, min_assoc]

theorem flMax_self (x : Fl K) : Fl.max x x = x := by cases x <;> simp [Fl.max]

theorem flMin_self (x : Fl K) : Fl.min x x = x := by cases x <;> simp [Fl.min]

theorem npMax_share {l m : List (Fl K)} (h : SameShares l m) : npMax l = npMax m :=
  of_copies (fun _ _ => npMax_shuffle) (fun n l hn => by
    rw [npMax_eq, npMax_eq, fold1_copies flMax_assoc flMax_self n l hn]) h

theorem npMin_share {l m : List (Fl K)} (h : SameShares l m) : npMin l = npMin m :=
  of_copies (fun _ _ => npMin_shuffle) (fun n l hn => by
    rw [npMin_eq, npMin_eq, fold1_copies flMin_assoc flMin_self n l hn]) h

theorem nanMax_share {l m : List (Fl K)} (h : SameShares l m) : nanMax l = nanMax m :=
  of_copies (fun _ _ => nanMax_shuffle) (fun n l hn => by
    rw [nanMax_eq, nanMax_eq, filter_copies, fold1_copies flMax_assoc flMax_self _ _ hn]
    simp only [copies_eq_nil hn]) h

theorem nanMin_share {l m : List (Fl K)} (h : SameShares l m) : nanMin l = nanMin m :=
  of_copies (fun _ _ => nanMin_shuffle) (fun n l hn => by
    rw [nanMin_eq, nanMin_eq, filter_copies, fold1_copies flMin_assoc flMin_self _ _ hn]
    simp only [copies_eq_nil hn]) h

theorem momentsCol_share (t : Fl K) {l m : List (Fl K)} (h : SameShares l m) : momentsCol (t :: l) = momentsCol (t :: m) :=
  of_copies (F := fun l => momentsCol (t :: l)) (fun _ _ => momentsCol_shuffle t) (fun n l hn => by
    unfold momentsCol
    simp only [List.tail_cons, List.getD_cons_zero, List.length_cons, countP_copies, length_copies, Nat.add_sub_cancel]
    have h1 : (n : K) ≠ 0 := by exact_mod_cast hn.ne'
    by_cases h2 : (l.length : K) = 0
    · rw [Nat.cast_mul, Nat.cast_mul, h2, mul_zero]
      simp [Fl.div]
    · rw [Nat.cast_mul, Nat.cast_mul]
      simp only [Fl.div, if_neg h2, if_neg (mul_ne_zero h1 h2), mul_div_mul_left _ _ h1]) h

/-! ### arrays -/

theorem _root_.Spec.SameFrequencies.axis_ok (h : SameFrequencies ax f g) (hax : AxisOK f.shape.length ax) :
    AxisOK g.shape.length ax := by
  rw [h.rank]; exact hax

theorem reduceAxesE_share [Inhabited β] (F : List (Fl K) → Except Err β) (hF : ∀ l m, SameShares l m → F l = F m)
    (h : SameFrequencies ax f g) (hax : AxisOK f.shape.length ax) :
    reduceAxesE F g (some [ax]) = reduceAxesE F f (some [ax]) := by
  unfold reduceAxesE
  have hn : normAxes f.shape.length (some [ax]) = .ok [axisNum f.shape.length ax] :=
    normAxes_ok (axes := some [ax]) ⟨by simpa using hax, by simp⟩
  rw [show g.ndim = f.shape.length from h.rank, show f.ndim = f.shape.length from rfl, hn]
  simp only [bind, Except.bind]
  have hoff : offAxes [axisNum f.shape.length ax] f.shape = posShape f.shape ax := dropAxes_single (axisNum_lt hax)
  have hoff' : offAxes [axisNum f.shape.length ax] g.shape = posShape f.shape ax := by
    rw [← h.positions, ← h.rank]
    exact dropAxes_single (axisNum_lt (h.axis_ok hax))
  have : mapE (fun k => F (reduced g [axisNum f.shape.length ax] k)) (allIdx (posShape f.shape ax)) =
      mapE (fun k => F (reduced f [axisNum f.shape.length ax] k)) (allIdx (posShape f.shape ax)) := by
    apply mapE_congr
    intro k hk
    have hm := h.members k (mem_allIdx.1 hk)
    unfold membersAt at hm
    rw [h.rank] at hm
    exact (hF _ _ hm).symm
  rw [hoff, hoff', this]

theorem reduceAxes_share [Inhabited β] (F : List (Fl K) → β) (hF : ∀ l m, SameShares l m → F l = F m)
    (h : SameFrequencies ax f g) (hax : AxisOK f.shape.length ax) :
    reduceAxes F g (some [ax]) = reduceAxes F f (some [ax]) :=
  reduceAxesE_share _ (fun l m hp => by rw [hF l m hp]) h hax

theorem ensVariance_share (h : SameFrequencies ax f g) (hax : AxisOK f.shape.length ax) :
    ensVariance g ax = ensVariance f ax := reduceAxes_share _ (fun _ _ => npVar_share) h hax

theorem ensSpread_share (skip : Bool) (h : SameFrequencies ax f g) (hax : AxisOK f.shape.length ax) :
    ensSpread skip g ax = ensSpread skip f ax := by
  unfold ensSpread
  rw [reduceAxesE_share (if skip then nanMax else npMax) (fun l m hp => by
      cases skip
      · exact npMax_share hp
      · exact nanMax_share hp) h hax,
    reduceAxesE_share (if skip then nanMin else npMin) (fun l m hp => by
      cases skip
      · exact npMin_share hp
      · exact nanMin_share hp) h hax]

theorem ensToProbBelow_share (workers : Nat) (method : Method) (kde : List (Fl K) → Fl K) (t : Thr K)
    (hk : method = .kde → ∀ t l m, SameShares l m → kde (t :: l) = kde (t :: m))
    (h : SameFrequencies ax f g) (hax : AxisOK f.shape.length ax) (h0 : (posShape f.shape ax).prod ≠ 0) :
    ensToProbBelow workers method kde g ax t = ensToProbBelow workers method kde f ax t := by
  have hgax := h.axis_ok hax
  by_cases ht : ThrOK t (posShape f.shape ax)
  · have hgt : ThrOK t (posShape g.shape ax) := by rw [h.positions]; exact ht
    by_cases hm : method = .unknown
    · subst hm
      unfold ensToProbBelow
      obtain ⟨c, hc, -⟩ := mergeThreshold_spec f t hax ht
      obtain ⟨d, hd, -⟩ := mergeThreshold_spec g t hgax hgt
      rw [hc, hd]; rfl
    · obtain ⟨r, r1, r2, r3⟩ := ensToProbBelow_spec workers method kde f t hax ht hm h0
      obtain ⟨s, s1, s2, s3⟩ := ensToProbBelow_spec workers method kde g t hgax hgt hm
        (show (posShape g.shape ax).prod ≠ 0 by rw [h.positions]; exact h0)
      rw [r1, s1]
      congr 1
      have hs : s.shape = r.shape := by rw [r2, s2]; exact h.positions
      apply ext_get hs
      intro k hk'
      have hkf : InB (posShape f.shape ax) k := by rw [hs, r2] at hk'; exact hk'
      rw [r3 k hkf, s3 k (show InB (posShape g.shape ax) k by rw [h.positions]; exact hkf)]
      have hp := h.members k hkf
      unfold membersAt at hp
      cases hme : method with
      | kde => exact (hk hme _ _ _ hp).symm
      | moments => exact (momentsCol_share _ hp).symm
      | unknown => exact absurd hme hm
  · unfold ensToProbBelow
    rw [mergeThreshold_error hax ht, mergeThreshold_error hgax (by rw [h.positions]; exact ht)]

end Lemmas
