import Verif.Spec.Names
import Mathlib.Data.List.Basic

/-! Helper lemmas about the file names of saved results. -/

namespace Model
open Np

variable {A : Type}

theorem space_not_mem_noSpaces (s : List Char) : ' ' ∉ noSpaces s := by
  unfold noSpaces
  intro h
  obtain ⟨c, -, hc⟩ := List.mem_map.1 h
  split at hc
  · exact absurd hc (by decide)
  · rename_i hne; exact hne hc

theorem mem_noSpaces {s : List Char} {c : Char} (h : c ∈ noSpaces s) : c ∈ s ∨ c = '_' := by
  unfold noSpaces at h
  obtain ⟨d, hd, hc⟩ := List.mem_map.1 h
  split at hc
  · exact Or.inr hc.symm
  · rw [← hc]; exact Or.inl hd

/-- the printed form of an argument inside a name -/
def shown (I : ArgInfo A) (a : Option A) : List Char := noSpaces (argText I a)

theorem noV_shown {I : ArgInfo A} (h : Plain I) (a : Option A) : 'v' ∉ shown I a := by
  intro hv
  rcases mem_noSpaces hv with hv | hv
  · cases a with
    | none => exact absurd (show 'v' ∈ "None".toList from hv) (by decide)
    | some a => exact h.noV a hv
  · exact absurd hv (by decide)

theorem noW_shown {I : ArgInfo A} (h : Plain I) (a : Option A) : 'w' ∉ shown I a := by
  intro hv
  rcases mem_noSpaces hv with hv | hv
  · cases a with
    | none => exact absurd (show 'w' ∈ "None".toList from hv) (by decide)
    | some a => exact h.noW a hv
  · exact absurd hv (by decide)

/-- a text without `c` in front of a separator containing `c` can be read back -/
theorem split_unique {c : Char} {pre post : List Char} (hpre : c ∉ pre) {a a' b b' : List Char} (ha : c ∉ a)
    (ha' : c ∉ a') (h : a ++ (pre ++ c :: post) ++ b = a' ++ (pre ++ c :: post) ++ b') : a = a' ∧ b = b' := by
  have key : ∀ {x x' y y' : List Char}, c ∉ x → c ∉ x' → x ++ c :: y = x' ++ c :: y' → x = x' ∧ y = y' := by
    intro x
    induction x with
    | nil =>
      intro x' y y' _ hx' h
      cases x' with
      | nil => simp at h; exact ⟨rfl, h⟩
      | cons d x' =>
        simp only [List.nil_append, List.cons_append, List.cons.injEq] at h
        exact absurd (by simp [h.1]) hx'
    | cons e x ih =>
      intro x' y y' hx hx' h
      cases x' with
      | nil =>
        simp only [List.nil_append, List.cons_append, List.cons.injEq] at h
        exact absurd (by simp [h.1]) hx
      | cons d x' =>
        simp only [List.cons_append, List.cons.injEq] at h
        obtain ⟨h1, h2⟩ := ih (fun hh => hx (by simp [hh])) (fun hh => hx' (by simp [hh])) h.2
        exact ⟨by rw [h.1, h1], h2⟩
  have h' : (a ++ pre) ++ c :: (post ++ b) = (a' ++ pre) ++ c :: (post ++ b') := by simpa using h
  obtain ⟨h1, h2⟩ := key (by simp [ha, hpre]) (by simp [ha', hpre]) h'
  exact ⟨List.append_cancel_right h1, List.append_cancel_left h2⟩

/-- constructor number -/
def Slot.idx : Slot A → Nat
  | .crps => 0 | .error => 1 | .spread => 2 | .sqError => 3 | .abError => 4 | .rankHist => 5 | .variance => 6
  | .fDeterm => 7 | .probToEns => 8 | .pit => 9 | .corr => 10 | .brierDecomp _ _ => 11 | .brier _ _ => 12
  | .cdf _ _ => 13 | .roc _ _ => 14 | .sharpness _ _ => 15 | .iouDeterm _ _ => 16 | .iouProb _ _ => 17
  | .reliability _ _ _ => 18 | .ss _ => 19

/-- how the names start -/
def slotKey : List (List Char) :=
  ["crps", "error", "sprea", "sq_er", "ab_er", "rank", "varia", "f_det", "prob_", "pit", "?", "?!", "brier", "cdf_o",
   "roc_o", "sharp", "iou_d", "iou_p", "rel_n", "ss_nb"].map String.toList

def obText (I : ArgInfo A) (o b : Option A) : List Char :=
  ['_'] ++ ("over".toList ++ ['_'] ++ shown I o) ++ (['_'] ++ ("below".toList ++ ['_'] ++ shown I b))

def nbText (I : ArgInfo A) (n : A) : List Char := ['_'] ++ ("nbins".toList ++ ['_'] ++ shown I (some n))

theorem inter1 (c b x : List Char) : c.intercalate [b, x] = b ++ (c ++ x) := by
  simp [List.intercalate]

theorem inter2 (c b x y : List Char) : c.intercalate [b, x, y] = b ++ (c ++ x ++ (c ++ y)) := by
  simp [List.intercalate]

theorem inter3 (c b x y z : List Char) : c.intercalate [b, x, y, z] = b ++ (c ++ x ++ (c ++ y ++ (c ++ z))) := by
  simp [List.intercalate]

/-- the name in full -/
def slotText (I : ArgInfo A) : Slot A → List Char
  | .crps => "crps".toList
  | .error => "error".toList
  | .spread => "spread".toList
  | .sqError => "sq_error".toList
  | .abError => "ab_error".toList
  | .rankHist => "rank".toList
  | .variance => "variance".toList
  | .fDeterm => "f_determ".toList
  | .probToEns => "prob_to_ens".toList
  | .pit => "pit".toList
  | .corr => []
  | .brierDecomp _ _ => []
  | .brier o b => "brier".toList ++ obText I o b
  | .cdf o b => "cdf".toList ++ obText I o b
  | .roc o b => "roc".toList ++ obText I o b
  | .sharpness o b => "sharpness".toList ++ obText I o b
  | .iouDeterm o b => "iou_determ".toList ++ obText I o b
  | .iouProb o b => "iou_prob".toList ++ obText I o b
  | .reliability n o b => "rel".toList ++ (nbText I n ++ obText I o b)
  | .ss n => "ss".toList ++ nbText I n

theorem toName_some {I : ArgInfo A} {b : List Char} {args : List (List Char × Option A)} {n : Name}
    (hlit : (noSpaces b).take 8 ≠ "LITERAL_".toList) (h : toName I (some b) args = .ok (some n)) :
    ∃ ps, nameParts I args = .ok (some ps) ∧ n = ['_'].intercalate (noSpaces b :: ps) := by
  unfold toName at h
  simp only at h
  rw [if_neg hlit] at h
  split at h
  · cases h
  · cases h
  · rename_i ps hps
    cases h
    exact ⟨ps, hps, rfl⟩

theorem nameParts_some {I : ArgInfo A} {args : List (List Char × Option A)} {ps : List (List Char)}
    (h : nameParts I args = .ok (some ps)) : ps = args.map fun q => q.1 ++ ['_'] ++ shown I q.2 := by
  induction args generalizing ps with
  | nil => cases h; rfl
  | cons q args ih =>
    obtain ⟨k, v⟩ := q
    simp only [nameParts] at h
    split at h
    · cases h
    · cases h
    · split at h
      · cases h
      · cases h
      · rename_i ps' hps
        cases h
        rw [ih hps]
        rfl

theorem slotName_text {I : ArgInfo A} {s : Slot A} {n : Name} (h : slotName I s = .ok (some n)) :
    n = slotText I s ∧ s.idx ≠ 10 ∧ s.idx ≠ 11 := by
  have aux : ∀ (b : String) (args : List (List Char × Option A)),
      noSpaces b.toList = b.toList → b.toList.take 8 ≠ "LITERAL_".toList → toName I (some b.toList) args = .ok (some n) →
      n = ['_'].intercalate (b.toList :: args.map fun q => q.1 ++ ['_'] ++ shown I q.2) := by
    intro b args h1 h2 h3
    obtain ⟨ps, hp, hn⟩ := toName_some (by rw [h1]; exact h2) h3
    rw [hn, nameParts_some hp, h1]
  cases s with
  | probToEns => cases h; exact ⟨rfl, by simp [Slot.idx]⟩
  | pit => cases h; exact ⟨rfl, by simp [Slot.idx]⟩
  | corr => simp [slotName, toName] at h
  | brierDecomp o b => simp [slotName, toName] at h
  | crps => exact ⟨aux "crps" [] (by decide) (by decide) (by simpa only [slotName] using h), by simp [Slot.idx]⟩
  | error => exact ⟨aux "error" [] (by decide) (by decide) (by simpa only [slotName] using h), by simp [Slot.idx]⟩
  | spread => exact ⟨aux "spread" [] (by decide) (by decide) (by simpa only [slotName] using h), by simp [Slot.idx]⟩
  | sqError => exact ⟨aux "sq_error" [] (by decide) (by decide) (by simpa only [slotName] using h), by simp [Slot.idx]⟩
  | abError => exact ⟨aux "ab_error" [] (by decide) (by decide) (by simpa only [slotName] using h), by simp [Slot.idx]⟩
  | rankHist => exact ⟨aux "rank" [] (by decide) (by decide) (by simpa only [slotName] using h), by simp [Slot.idx]⟩
  | variance => exact ⟨aux "variance" [] (by decide) (by decide) (by simpa only [slotName] using h), by simp [Slot.idx]⟩
  | fDeterm => exact ⟨aux "f_determ" [] (by decide) (by decide) (by simpa only [slotName] using h), by simp [Slot.idx]⟩
  | brier o b =>
    refine ⟨?_, by simp [Slot.idx]⟩
    rw [aux "brier" _ (by decide) (by decide) (by simpa only [slotName] using h)]; exact inter2 _ _ _ _
  | cdf o b =>
    refine ⟨?_, by simp [Slot.idx]⟩
    rw [aux "cdf" _ (by decide) (by decide) (by simpa only [slotName] using h)]; exact inter2 _ _ _ _
  | roc o b =>
    refine ⟨?_, by simp [Slot.idx]⟩
    rw [aux "roc" _ (by decide) (by decide) (by simpa only [slotName] using h)]; exact inter2 _ _ _ _
  | sharpness o b =>
    refine ⟨?_, by simp [Slot.idx]⟩
    rw [aux "sharpness" _ (by decide) (by decide) (by simpa only [slotName] using h)]; exact inter2 _ _ _ _
  | iouDeterm o b =>
    refine ⟨?_, by simp [Slot.idx]⟩
    rw [aux "iou_determ" _ (by decide) (by decide) (by simpa only [slotName] using h)]; exact inter2 _ _ _ _
  | iouProb o b =>
    refine ⟨?_, by simp [Slot.idx]⟩
    rw [aux "iou_prob" _ (by decide) (by decide) (by simpa only [slotName] using h)]; exact inter2 _ _ _ _
  | reliability n o b =>
    refine ⟨?_, by simp [Slot.idx]⟩
    rw [aux "rel" _ (by decide) (by decide) (by simpa only [slotName] using h)]; exact inter3 _ _ _ _ _
  | ss n =>
    refine ⟨?_, by simp [Slot.idx]⟩
    rw [aux "ss" _ (by decide) (by decide) (by simpa only [slotName] using h)]; exact inter1 _ _ _

theorem slotText_key (I : ArgInfo A) (s : Slot A) (h : s.idx ≠ 10 ∧ s.idx ≠ 11) :
    slotKey[s.idx]? = some ((slotText I s).take 5) := by
  cases s with
  | corr => exact absurd rfl h.1
  | brierDecomp o b => exact absurd rfl h.2
  | _ => rfl

theorem obText_inj {I : ArgInfo A} (h : Plain I) {o b o' b' : Option A} (e : obText I o b = obText I o' b') :
    shown I o = shown I o' ∧ shown I b = shown I b' := by
  have e2 : shown I o ++ ("_belo".toList ++ 'w' :: "_".toList) ++ shown I b =
      shown I o' ++ ("_belo".toList ++ 'w' :: "_".toList) ++ shown I b' := by
    have : ∀ o b : Option A, obText I o b =
        "_over_".toList ++ (shown I o ++ ("_belo".toList ++ 'w' :: "_".toList) ++ shown I b) := by
      intro o b
      unfold obText
      generalize shown I o = x
      generalize shown I b = y
      simp only [List.append_assoc]
      rfl
    rw [this, this] at e
    exact List.append_cancel_left e
  exact split_unique (by decide) (noW_shown h o) (noW_shown h o') e2

theorem nbText_inj {I : ArgInfo A} {n n' : A} (e : nbText I n = nbText I n') :
    shown I (some n) = shown I (some n') := by
  unfold nbText at e
  exact List.append_cancel_left (List.append_cancel_left e)

theorem nbOb_inj {I : ArgInfo A} (h : Plain I) {n n' : A} {o b o' b' : Option A}
    (e : nbText I n ++ obText I o b = nbText I n' ++ obText I o' b') :
    shown I (some n) = shown I (some n') ∧ shown I o = shown I o' ∧ shown I b = shown I b' := by
  have : ∀ (n : A) (o b : Option A), nbText I n ++ obText I o b =
      "_nbins_".toList ++ (shown I (some n) ++ ("_o".toList ++ 'v' :: "er_".toList) ++
        (shown I o ++ (['_'] ++ ("below".toList ++ ['_'] ++ shown I b)))) := by
    intro n o b
    unfold obText nbText
    generalize shown I o = x
    generalize shown I b = y
    generalize shown I (some n) = z
    simp only [List.append_assoc]
    rfl
  have e' := e
  rw [this, this] at e
  obtain ⟨e3, e4⟩ := split_unique (by decide) (noV_shown h _) (noV_shown h _) (List.append_cancel_left e)
  have hn : nbText I n = nbText I n' := by unfold nbText; rw [e3]
  rw [hn] at e'
  exact ⟨e3, obText_inj h (List.append_cancel_left e')⟩

theorem slotName_idx {I : ArgInfo A} {s s' : Slot A} {n : Name} (h1 : slotName I s = .ok (some n))
    (h2 : slotName I s' = .ok (some n)) : s.idx = s'.idx := by
  obtain ⟨t1, i1⟩ := slotName_text h1
  obtain ⟨t2, i2⟩ := slotName_text h2
  have ht : slotText I s = slotText I s' := t1.symm.trans t2
  have hk : slotKey[s.idx]? = slotKey[s'.idx]? := by rw [slotText_key I s i1, slotText_key I s' i2, ht]
  have hlt : ∀ s : Slot A, s.idx < 20 := by intro s; cases s <;> simp [Slot.idx]
  have : ∀ i < 20, ∀ j < 20, slotKey[i]? = slotKey[j]? → i = j := by decide
  exact this _ (hlt s) _ (hlt s') hk

/-- different saved things have different names -/
theorem slotName_printed {I : ArgInfo A} (h : Plain I) {s s' : Slot A} {n : Name} (h1 : slotName I s = .ok (some n))
    (h2 : slotName I s' = .ok (some n)) : printed I s = printed I s' := by
  have hidx := slotName_idx h1 h2
  obtain ⟨t1, i1⟩ := slotName_text h1
  obtain ⟨t2, i2⟩ := slotName_text h2
  have ht : slotText I s = slotText I s' := t1.symm.trans t2
  cases s <;> cases s' <;> first
    | rfl
    | (exfalso; revert hidx; simp [Slot.idx]; done)
    | (exfalso; exact i1.2 rfl)
    | (have e := obText_inj h (List.append_cancel_left ht); unfold shown at e; simp only [printed, e.1, e.2])
    | skip
  · have e := nbOb_inj h (List.append_cancel_left ht)
    unfold shown at e
    simp only [printed, e.1, e.2.1, e.2.2]
  · have e := nbText_inj (List.append_cancel_left ht)
    unfold shown at e
    simp only [printed, e]

theorem slotName_inj {I : ArgInfo A} (h : TextOK I) {s s' : Slot A} {n : Name} (h1 : slotName I s = .ok (some n))
    (h2 : slotName I s' = .ok (some n)) : s = s' := by
  have hidx := slotName_idx h1 h2
  obtain ⟨t1, i1⟩ := slotName_text h1
  have hp := slotName_printed h.toPlain h1 h2
  have hs := h.inj
  cases s <;> cases s' <;> first
    | rfl
    | (exfalso; revert hidx; simp [Slot.idx]; done)
    | (exfalso; exact i1.2 rfl)
    | (simp only [printed, Prod.mk.injEq, List.cons.injEq, and_true, true_and] at hp
       obtain ⟨rfl, rfl⟩ := And.intro (hs _ _ hp.1) (hs _ _ hp.2)
       rfl)
    | skip
  · simp only [printed, Prod.mk.injEq, List.cons.injEq, and_true, true_and] at hp
    obtain ⟨e1, e2, e3⟩ := hp
    cases hs _ _ e1
    cases hs _ _ e2
    cases hs _ _ e3
    rfl
  · simp only [printed, Prod.mk.injEq, List.cons.injEq, and_true, true_and] at hp
    cases hs _ _ hp
    rfl

end Model
