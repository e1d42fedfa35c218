import Verif.Lemmas.Cache
import Verif.Lemmas.Name

/-! Helper lemmas about the metric methods as computations with saved results. -/

namespace Model
open Np

variable {X V A : Type}

/-- what is saved under these names does not depend on `avg_axis` or `boot_samples` -/
def Slot.stable : Slot A → Bool
  | .iouDeterm _ _ | .iouProb _ _ | .reliability _ _ _ | .ss _ | .corr | .brierDecomp _ _ => false
  | _ => true

/-- results that other methods load -/
def Slot.inner : Slot A → Bool
  | .sqError | .variance | .fDeterm | .probToEns | .pit | .brier _ _ | .cdf _ _ => true
  | _ => false

theorem Slot.inner_stable {s : Slot A} (h : s.inner = true) : s.stable = true := by
  cases s <;> first | rfl | cases h

theorem named_ne {I : ArgInfo A} {s : Slot A} {n : Name} (h : slotName I s = .ok (some n)) :
    s ≠ .corr ∧ ∀ o b, s ≠ .brierDecomp o b := by
  obtain ⟨-, h1, h2⟩ := slotName_text h
  exact ⟨fun e => h1 (by rw [e]; rfl), fun o b e => h2 (by rw [e]; rfl)⟩

theorem slotBody_boot (C : Cls) (I : ArgInfo A) (P : Prims X V A) (x : X) (avg : PyAxis) (boot boot' : PyBoot)
    {s : Slot A} {n : Name} (h : slotName I s = .ok (some n)) :
    slotBody C I P x avg boot s = slotBody C I P x avg boot' s := by
  obtain ⟨h1, h2⟩ := named_ne h
  cases s with
  | corr => exact absurd rfl h1
  | brierDecomp o b => exact absurd rfl (h2 o b)
  | _ => rfl

theorem slotBody_stable (C : Cls) (I : ArgInfo A) (P : Prims X V A) (x : X) (avg avg' : PyAxis) (boot boot' : PyBoot)
    {s : Slot A} (h : s.stable = true) :
    slotBody C I P x avg boot s = slotBody C I P x avg' boot' s := by
  cases s with
  | corr => cases h
  | brierDecomp o b => cases h
  | iouDeterm o b => cases h
  | iouProb o b => cases h
  | reliability n o b => cases h
  | ss n => cases h
  | _ => rfl

section allIn
variable (C : Cls) (I : ArgInfo A) (P : Prims X V A) {S : Name → Prop}
  (hn : ∀ s : Slot A, s.inner = true → ∀ n, slotName I s = .ok (some n) → S n)
include hn

theorem allIn_cdfBody (x : X) (o b : Option A) : AllIn S (cdfBody C I P x o b) := by
  unfold cdfBody
  split
  · trivial
  · split
    · trivial
    · exact allIn_callName (hn _ rfl) trivial fun _ => trivial
    · trivial

theorem allIn_cdfCall (x : X) (o b : Option A) (k : V → Prog V) (hk : ∀ v, AllIn S (k v)) :
    AllIn S (cdfCall C I P x o b k) :=
  allIn_callName (hn _ rfl) (allIn_cdfBody C I P hn x o b) hk

theorem allIn_cdfAll (x : X) (g : X → List V → Except Err V) : AllIn S (cdfAll C I P x g) := by
  unfold cdfAll
  split
  · trivial
  · apply allIn_callAll
    · intro q hq
      obtain ⟨a, -, rfl⟩ := List.mem_map.1 hq
      exact ⟨hn (.cdf none (some a)) rfl, allIn_cdfBody C I P hn x none (some a)⟩
    · intro _; trivial

theorem allIn_fDetBody (x : X) : AllIn S (fDetBody C I P x) := by
  unfold fDetBody
  split
  · exact allIn_cdfAll _ I P hn x _
  · trivial

theorem allIn_fDetCall (x : X) (k : V → Prog V) (hk : ∀ v, AllIn S (k v)) : AllIn S (fDetCall C I P x k) :=
  allIn_callName (hn _ rfl) (allIn_fDetBody C I P hn x) hk

theorem allIn_withDet (x : X) (g : V → Except Err V) : AllIn S (withDet C I P x g) := by
  unfold withDet
  split
  · trivial
  · trivial
  · exact allIn_fDetCall C I P hn x _ fun _ => trivial

theorem allIn_varBody (x : X) : AllIn S (varBody C I P x) := by
  unfold varBody
  split
  · trivial
  · exact allIn_cdfAll _ I P hn x _
  · trivial

omit hn in
theorem allIn_ensBody (x : X) : AllIn S (ensBody C P x) := by
  unfold ensBody
  split
  · split
    · intro _; trivial
    · trivial
  · split
    · intro _; trivial
    · trivial
  · trivial

omit hn in
theorem allIn_pitBody (x : X) : AllIn S (pitBody P x) := by
  unfold pitBody
  split
  · trivial
  · split
    · intro _; trivial
    · trivial

theorem allIn_brierBody (x : X) (o b : Option A) : AllIn S (brierBody C I P x o b) := by
  unfold brierBody
  split
  · trivial
  · exact allIn_cdfCall C I P hn x o b _ fun _ => trivial

theorem allIn_withProb (x : X) (o b : Option A) (k : V → V → Prog V) (hk : ∀ v v', AllIn S (k v v')) :
    AllIn S (withProb C I P x o b k) := by
  unfold withProb
  split
  · trivial
  · refine allIn_cdfCall C I P hn x o b _ fun v => ?_
    split
    · trivial
    · exact hk _ _

theorem allIn_slotBody (x : X) (avg : PyAxis) (boot : PyBoot) (s : Slot A) :
    AllIn S (slotBody C I P x avg boot s) := by
  cases s with
  | error => exact allIn_withDet C I P hn x _
  | sqError => exact allIn_withDet C I P hn x _
  | abError => exact allIn_withDet C I P hn x _
  | crps =>
    simp only [slotBody]
    split
    · trivial
    · split
      · trivial
      · apply allIn_callAll
        · intro q hq
          obtain ⟨a, -, rfl⟩ := List.mem_map.1 hq
          exact ⟨hn (.brier none (some a)) rfl, allIn_brierBody .hurdle I P hn x none (some a)⟩
        · intro _; trivial
    · trivial
  | spread =>
    simp only [slotBody]
    split
    · trivial
    · trivial
    · exact allIn_callName (hn _ rfl) (allIn_ensBody C P x) fun _ => trivial
  | rankHist =>
    simp only [slotBody]
    split
    · trivial
    · intro _; trivial
    · split
      · exact allIn_callName (hn _ rfl) (allIn_ensBody C P x) fun _ _ => trivial
      · exact allIn_callName (hn _ rfl) (allIn_pitBody P x) fun _ => trivial
  | variance => exact allIn_varBody C I P hn x
  | fDeterm => exact allIn_fDetBody C I P hn x
  | probToEns => exact allIn_ensBody C P x
  | pit => exact allIn_pitBody P x
  | corr =>
    refine allIn_fDetCall C I P hn x _ fun v => ?_
    split
    · trivial
    · intro _; trivial
  | brierDecomp o b =>
    refine allIn_withProb C I P hn x o b _ fun v v' => ?_
    split
    · trivial
    · intro _; trivial
  | brier o b => exact allIn_brierBody C I P hn x o b
  | cdf o b => exact allIn_cdfBody C I P hn x o b
  | roc o b => exact allIn_withProb C I P hn x o b _ fun _ _ => trivial
  | sharpness o b =>
    simp only [slotBody]
    split
    · trivial
    · exact allIn_cdfCall C I P hn x o b _ fun _ => trivial
  | iouDeterm o b => exact allIn_withDet C I P hn x _
  | iouProb o b =>
    simp only [slotBody]
    split
    · trivial
    · split
      · split
        · split
          · refine allIn_withProb C I P hn x _ _ _ fun v v' => ?_
            split <;> trivial
          · trivial
        · trivial
      · trivial
  | reliability n o b => exact allIn_withProb C I P hn x o b _ fun _ _ => trivial
  | ss n =>
    simp only [slotBody]
    split
    · trivial
    · exact allIn_callName (hn _ rfl) (allIn_varBody C I P hn x) fun _ =>
        allIn_callName (hn _ rfl) (allIn_withDet C I P hn x _) fun _ => trivial

end allIn

theorem allIn_slotPost (P : Prims X V A) {S : Name → Prop} (avg : PyAxis) (boot : PyBoot) (s : Slot A) (v : V) :
    AllIn S (slotPost P avg boot s v) := by
  cases s <;> simp only [slotPost, bootOrAvgP, postBins] <;> first
    | trivial
    | (split
       · trivial
       · intro _; trivial)

theorem agree_slotPost (P : Prims X V A) {S : Name → Prop} {Val : Name → V → Prop} (avg : PyAxis) (boot : PyBoot)
    (s : Slot A) (v : V) : Agree S Val (slotPost P avg boot s v) := by
  cases s <;> simp only [slotPost, bootOrAvgP, postBins] <;> first
    | trivial
    | (split
       · trivial
       · intro _; trivial)

section agree
variable (C : Cls) (I : ArgInfo A) (P : Prims X V A) {S : Name → Prop} {Val : Name → V → Prop} (x : X) (avg : PyAxis)
  (boot : PyBoot)
  (hv : ∀ (s : Slot A) n, slotName I s = .ok (some n) → S n →
    AllIn S (slotBody C I P x avg boot s) ∧ ∀ v, Val n v ↔ poss (slotBody C I P x avg boot s) (.ok v))
include hv

theorem agree_cdfBody (o b : Option A) : Agree S Val (cdfBody C I P x o b) := by
  unfold cdfBody
  split
  · trivial
  · rename_i hC
    split
    · trivial
    · rename_i o
      refine agree_callName ?_ trivial fun _ => trivial
      intro n hn hS
      have := hv _ n hn hS
      simpa only [slotBody, cdfBody, if_neg hC] using this
    · trivial

theorem agree_cdfCall (o b : Option A) (k : V → Prog V) (hk : ∀ v, Agree S Val (k v)) :
    Agree S Val (cdfCall C I P x o b k) :=
  agree_callName (hv (.cdf o b)) (agree_cdfBody C I P x avg boot hv o b) hk

theorem agree_cdfAll (g : X → List V → Except Err V) : Agree S Val (cdfAll C I P x g) := by
  unfold cdfAll
  split
  · trivial
  · apply agree_callAll
    · intro q hq
      obtain ⟨a, -, rfl⟩ := List.mem_map.1 hq
      exact ⟨hv (.cdf none (some a)), agree_cdfBody C I P x avg boot hv none (some a)⟩
    · intro _; trivial

theorem agree_fDetBody : Agree S Val (fDetBody C I P x) := by
  cases C with
  | hurdle => exact agree_cdfAll _ I P x avg boot hv _
  | _ => trivial

theorem agree_fDetCall (k : V → Prog V) (hk : ∀ v, Agree S Val (k v)) : Agree S Val (fDetCall C I P x k) :=
  agree_callName (hv .fDeterm) (agree_fDetBody C I P x avg boot hv) hk

theorem agree_withDet (g : V → Except Err V) : Agree S Val (withDet C I P x g) := by
  unfold withDet
  split
  · trivial
  · trivial
  · exact agree_fDetCall C I P x avg boot hv _ fun _ => trivial

theorem agree_varBody : Agree S Val (varBody C I P x) := by
  cases C with
  | determ => trivial
  | hurdle => exact agree_cdfAll _ I P x avg boot hv _
  | _ => trivial

omit hv in
theorem agree_ensBody : Agree S Val (ensBody C P x) := by
  unfold ensBody
  split
  · split
    · intro _; trivial
    · trivial
  · split
    · intro _; trivial
    · trivial
  · trivial

omit hv in
theorem agree_pitBody : Agree S Val (pitBody P x) := by
  unfold pitBody
  split
  · trivial
  · split
    · intro _; trivial
    · trivial

theorem agree_brierBody (o b : Option A) : Agree S Val (brierBody C I P x o b) := by
  unfold brierBody
  split
  · trivial
  · exact agree_cdfCall C I P x avg boot hv o b _ fun _ => trivial

theorem agree_withProb (o b : Option A) (k : V → V → Prog V) (hk : ∀ v v', Agree S Val (k v v')) :
    Agree S Val (withProb C I P x o b k) := by
  unfold withProb
  split
  · trivial
  · refine agree_cdfCall C I P x avg boot hv o b _ fun v => ?_
    split
    · trivial
    · exact hk _ _

theorem agree_slotBody (s : Slot A) : Agree S Val (slotBody C I P x avg boot s) := by
  cases s with
  | error => exact agree_withDet C I P x avg boot hv _
  | sqError => exact agree_withDet C I P x avg boot hv _
  | abError => exact agree_withDet C I P x avg boot hv _
  | crps =>
    cases C with
    | determ => trivial
    | hurdle =>
      simp only [slotBody]
      split
      · trivial
      · apply agree_callAll
        · intro q hq
          obtain ⟨a, -, rfl⟩ := List.mem_map.1 hq
          exact ⟨hv (.brier none (some a)), agree_brierBody _ I P x avg boot hv none (some a)⟩
        · intro _; trivial
    | _ => trivial
  | spread =>
    simp only [slotBody]
    split
    · trivial
    · trivial
    · exact agree_callName (hv .probToEns) (agree_ensBody C P x) fun _ => trivial
  | rankHist =>
    simp only [slotBody]
    split
    · trivial
    · intro _; trivial
    · split
      · exact agree_callName (hv .probToEns) (agree_ensBody C P x) fun _ _ => trivial
      · exact agree_callName (hv .pit) (agree_pitBody P x) fun _ => trivial
  | variance => exact agree_varBody C I P x avg boot hv
  | fDeterm => exact agree_fDetBody C I P x avg boot hv
  | probToEns => exact agree_ensBody C P x
  | pit => exact agree_pitBody P x
  | corr =>
    refine agree_fDetCall C I P x avg boot hv _ fun v => ?_
    split
    · trivial
    · intro _; trivial
  | brierDecomp o b =>
    refine agree_withProb C I P x avg boot hv o b _ fun v v' => ?_
    split
    · trivial
    · intro _; trivial
  | brier o b => exact agree_brierBody C I P x avg boot hv o b
  | cdf o b => exact agree_cdfBody C I P x avg boot hv o b
  | roc o b => exact agree_withProb C I P x avg boot hv o b _ fun _ _ => trivial
  | sharpness o b =>
    simp only [slotBody]
    split
    · trivial
    · exact agree_cdfCall C I P x avg boot hv o b _ fun _ => trivial
  | iouDeterm o b => exact agree_withDet C I P x avg boot hv _
  | iouProb o b =>
    simp only [slotBody]
    split
    · trivial
    · split
      · split
        · split
          · refine agree_withProb C I P x avg boot hv _ _ _ fun v v' => ?_
            split <;> trivial
          · trivial
        · trivial
      · trivial
  | reliability n o b => exact agree_withProb C I P x avg boot hv o b _ fun _ _ => trivial
  | ss n =>
    simp only [slotBody]
    split
    · trivial
    · exact agree_callName (hv .variance) (agree_varBody C I P x avg boot hv) fun _ =>
        agree_callName (hv .sqError) (agree_withDet C I P x avg boot hv _) fun _ => trivial

theorem agree_metricProg (r : Req A) : Agree S Val (metricProg C I P x avg boot r) := by
  cases r with
  | slot s =>
    simp only [metricProg]
    split
    · trivial
    · exact agree_callName (hv s) (agree_slotBody C I P x avg boot hv s) fun v => agree_slotPost P avg boot s v
  | rmse =>
    refine agree_callName (hv .sqError) (agree_withDet C I P x avg boot hv _) fun v => ?_
    unfold bootOrAvgP
    split
    · trivial
    · intro _; trivial

end agree

/-- requests for stable things -/
def Req.stable : Req A → Bool
  | .slot s => s.stable
  | .rmse => true

theorem allIn_metricProg (C : Cls) (I : ArgInfo A) (P : Prims X V A) {S : Name → Prop}
    (hn : ∀ s : Slot A, s.stable = true → ∀ n, slotName I s = .ok (some n) → S n)
    (x : X) (avg : PyAxis) (boot : PyBoot) (r : Req A) (hr : r.stable = true) :
    AllIn S (metricProg C I P x avg boot r) := by
  cases r with
  | slot s =>
    simp only [metricProg]
    split
    · trivial
    · exact allIn_callName (hn s hr) (allIn_slotBody C I P (fun s h => hn s (Slot.inner_stable h)) x avg boot s) fun v => allIn_slotPost P avg boot s v
  | rmse =>
    refine allIn_callName (hn .sqError rfl) (allIn_withDet C I P (fun s h => hn s (Slot.inner_stable h)) x _) fun v => ?_
    unfold bootOrAvgP
    split
    · trivial
    · intro _; trivial

theorem allIn_true (p : Prog V) : AllIn (fun _ => True) p := by
  induction p with
  | ret r => trivial
  | draw k ih => exact ih
  | call name body k ihb ihk => exact ⟨fun _ _ => trivial, ihb, ihk⟩

/-- what the name of a saved result stands for -/
def SVal (C : Cls) (I : ArgInfo A) (P : Prims X V A) (x : X) (avg : PyAxis) (n : Name) (v : V) : Prop :=
  ∃ s, slotName I s = .ok (some n) ∧ poss (slotBody C I P x avg .none s) (.ok v)

/-- names that do not depend on the aggregation settings -/
def stableName (I : ArgInfo A) (n : Name) : Prop := ∃ s : Slot A, s.stable = true ∧ slotName I s = .ok (some n)

/-- all names stand for one thing under fixed settings -/
theorem agree_all {I : ArgInfo A} (hI : TextOK I) (C : Cls) (P : Prims X V A) (x : X) (avg : PyAxis) (boot : PyBoot)
    (r : Req A) : Agree (fun _ => True) (SVal C I P x avg) (metricProg C I P x avg boot r) := by
  apply agree_metricProg
  intro s n hs _
  refine ⟨allIn_true _, fun v => ?_⟩
  rw [slotBody_boot C I P x avg boot .none hs]
  constructor
  · rintro ⟨s', hs', hp⟩
    rwa [slotName_inj hI hs hs']
  · exact fun hp => ⟨s, hs, hp⟩

/-- stable names stand for one thing whatever the aggregation settings -/
theorem agree_stable {I : ArgInfo A} (hI : TextOK I) (C : Cls) (P : Prims X V A) (x : X) (avg0 avg : PyAxis)
    (boot : PyBoot) (r : Req A) :
    Agree (stableName I) (SVal C I P x avg0) (metricProg C I P x avg boot r) := by
  apply agree_metricProg
  intro s n hs hn
  refine ⟨allIn_slotBody C I P (fun s h n hn => ⟨s, Slot.inner_stable h, hn⟩) x avg boot s, fun v => ?_⟩
  obtain ⟨s', hst, hs'⟩ := hn
  obtain rfl := slotName_inj hI hs hs'
  rw [slotBody_stable C I P x avg avg0 boot .none hst]
  constructor
  · rintro ⟨s'', hs'', hp⟩
    rwa [slotName_inj hI hs hs'']
  · exact fun hp => ⟨s, hs, hp⟩

/-! ### no random numbers -/

/-- metric calls that use no random numbers -/
def detSlot (C : Cls) (P : Prims X V A) (x : X) (boot : PyBoot) : Slot A → Prop
  | .probToEns => False
  | .spread => (C = .determ ∨ C = .ensemble) ∧ boot = .none
  | .rankHist => C = .determ ∨ (C ≠ .ensemble ∧ P.members x = false ∧ P.pitRandom x = false)
  | .pit => P.pitRandom x = false
  | .crps | .error | .sqError | .abError | .brier _ _ | .reliability _ _ _ | .ss _ | .corr | .brierDecomp _ _ =>
    boot = .none
  | _ => True

def detReq (C : Cls) (P : Prims X V A) (x : X) (boot : PyBoot) : Req A → Prop
  | .slot s => detSlot C P x boot s
  | .rmse => boot = .none

section det
variable (C : Cls) (I : ArgInfo A) (P : Prims X V A) (x : X)

theorem det_cdfBody (o b : Option A) : Det (cdfBody C I P x o b) := by
  unfold cdfBody
  split
  · trivial
  · split
    · trivial
    · exact det_callName trivial fun _ => trivial
    · trivial

theorem det_cdfAll (g : X → List V → Except Err V) : Det (cdfAll C I P x g) := by
  unfold cdfAll
  split
  · trivial
  · apply det_callAll
    · intro q hq
      obtain ⟨a, -, rfl⟩ := List.mem_map.1 hq
      exact det_cdfBody C I P x none (some a)
    · intro _; trivial

theorem det_fDetBody : Det (fDetBody C I P x) := by
  unfold fDetBody
  split
  · exact det_cdfAll _ I P x _
  · trivial

theorem det_withDet (g : V → Except Err V) : Det (withDet C I P x g) := by
  unfold withDet
  split
  · trivial
  · trivial
  · exact det_callName (det_fDetBody C I P x) fun _ => trivial

theorem det_varBody : Det (varBody C I P x) := by
  unfold varBody
  split
  · trivial
  · exact det_cdfAll _ I P x _
  · trivial

theorem det_brierBody (o b : Option A) : Det (brierBody C I P x o b) := by
  unfold brierBody
  split
  · trivial
  · exact det_callName (det_cdfBody C I P x _ _) fun _ => trivial

theorem det_withProb (o b : Option A) (k : V → V → Prog V) (hk : ∀ v v', Det (k v v')) :
    Det (withProb C I P x o b k) := by
  unfold withProb
  split
  · trivial
  · refine det_callName (det_cdfBody C I P x _ _) fun v => ?_
    split
    · trivial
    · exact hk _ _

theorem det_pitBody (h : P.pitRandom x = false) : Det (pitBody P x) := by
  unfold pitBody
  split
  · trivial
  · rw [if_neg (by simp [h])]; trivial

theorem det_slotBody (avg : PyAxis) (boot : PyBoot) (s : Slot A) (h : detSlot C P x boot s) :
    Det (slotBody C I P x avg boot s) := by
  cases s with
  | error => exact det_withDet C I P x _
  | sqError => exact det_withDet C I P x _
  | abError => exact det_withDet C I P x _
  | crps =>
    simp only [slotBody]
    split
    · trivial
    · split
      · trivial
      · apply det_callAll
        · intro q hq
          obtain ⟨a, -, rfl⟩ := List.mem_map.1 hq
          exact det_brierBody .hurdle I P x none (some a)
        · intro _; trivial
    · trivial
  | spread =>
    rcases h.1 with h | h
    · subst h; trivial
    · subst h; trivial
  | rankHist =>
    rcases h with h | ⟨h1, h2, h3⟩
    · subst h; trivial
    · simp only [slotBody]
      split
      · trivial
      · exact absurd rfl h1
      · rw [if_neg (by simp [h2])]
        exact det_callName (det_pitBody P x h3) fun _ => trivial
  | variance => exact det_varBody C I P x
  | fDeterm => exact det_fDetBody C I P x
  | probToEns => exact h.elim
  | pit => exact det_pitBody P x h
  | corr =>
    simp only [slotBody, fDetCall]
    refine det_callName (det_fDetBody C I P x) fun v => ?_
    rw [if_pos (show boot = .none from h)]; trivial
  | brierDecomp o b =>
    refine det_withProb C I P x o b _ fun v v' => ?_
    rw [if_pos (show boot = .none from h)]; trivial
  | brier o b => exact det_brierBody C I P x o b
  | cdf o b => exact det_cdfBody C I P x o b
  | roc o b => exact det_withProb C I P x o b _ fun _ _ => trivial
  | sharpness o b =>
    simp only [slotBody]
    split
    · trivial
    · exact det_callName (det_cdfBody C I P x _ _) fun _ => trivial
  | iouDeterm o b => exact det_withDet C I P x _
  | iouProb o b =>
    simp only [slotBody]
    split
    · trivial
    · split
      · split
        · split
          · refine det_withProb C I P x _ _ _ fun v v' => ?_
            split <;> trivial
          · trivial
        · trivial
      · trivial
  | reliability n o b => exact det_withProb C I P x o b _ fun _ _ => trivial
  | ss n =>
    simp only [slotBody]
    split
    · trivial
    · exact det_callName (det_varBody C I P x) fun _ => det_callName (det_withDet C I P x _) fun _ => trivial

theorem det_metricProg (avg : PyAxis) (boot : PyBoot) (r : Req A) (h : detReq C P x boot r) :
    Det (metricProg C I P x avg boot r) := by
  cases r with
  | rmse =>
    simp only [metricProg]
    refine det_callName (det_withDet C I P x _) fun v => ?_
    unfold bootOrAvgP
    rw [if_pos (show boot = .none from h)]; trivial
  | slot s =>
    simp only [metricProg]
    split
    · trivial
    · refine det_callName (det_slotBody C I P x avg boot s h) fun v => ?_
      cases s with
      | spread => simp only [slotPost, bootOrAvgP]; rw [if_pos h.2]; trivial
      | crps => simp only [slotPost, bootOrAvgP]; rw [if_pos (show boot = .none from h)]; trivial
      | error => simp only [slotPost, bootOrAvgP]; rw [if_pos (show boot = .none from h)]; trivial
      | sqError => simp only [slotPost, bootOrAvgP]; rw [if_pos (show boot = .none from h)]; trivial
      | abError => simp only [slotPost, bootOrAvgP]; rw [if_pos (show boot = .none from h)]; trivial
      | brier o b => simp only [slotPost, bootOrAvgP]; rw [if_pos (show boot = .none from h)]; trivial
      | reliability n o b => simp only [slotPost, postBins]; rw [if_pos (show boot = .none from h)]; trivial
      | ss n => simp only [slotPost, postBins]; rw [if_pos (show boot = .none from h)]; trivial
      | _ => trivial

end det

/-! ### validation -/

/-- every state passed through while a directory is deleted only lacks things -/
def Deletes (mids : FS V → Path → List (FS V)) : Prop :=
  ∀ fs d fs', fs' ∈ mids fs d → ∀ q, fs' q = fs q ∨ (d <+: q ∧ fs' q = none)

theorem goodOn_sub {S : Name → Prop} {Val : Name → V → Prop} {D : Path → Prop} {fs fs' : FS V}
    (h : GoodOn S Val D fs) (hs : ∀ q v, fs' q = some (.file (.full v)) → fs q = some (.file (.full v))) :
    GoodOn S Val D fs' :=
  fun d hd n v hn hv => h d hd n v hn (hs _ _ hv)

theorem makeDirs_good {S : Name → Prop} {Val : Name → V → Prop} {D : Path → Prop} (ps : List Path) (w : World V)
    (hg : GoodOn S Val D w.fs) (ht : ∀ fs ∈ w.trace, GoodOn S Val D fs) :
    GoodOn S Val D (makeDirs ps w).2.fs ∧ ∀ fs ∈ (makeDirs ps w).2.trace, GoodOn S Val D fs := by
  induction ps generalizing w with
  | nil => exact ⟨hg, ht⟩
  | cons p ps ih =>
    simp only [makeDirs]
    split
    · exact ih w hg ht
    · exact ⟨hg, ht⟩
    · have hg' : GoodOn S Val D (w.fs.set p (some .dir)) := by
        apply goodOn_sub hg
        intro q v hq
        unfold FS.set at hq
        split at hq
        · cases hq
        · exact hq
      refine ih _ hg' fun fs hfs => ?_
      simp only [World.eff] at hfs
      rcases List.mem_append.1 hfs with h | h
      · exact ht fs h
      · simp only [List.mem_singleton] at h; subst h; exact hg'

theorem prepareDir_good {S : Name → Prop} {Val : Name → V → Prop} {D : Path → Prop}
    {mids : FS V → Path → List (FS V)} (hm : Deletes mids) (scratch : Bool) (d : Path) (w : World V)
    (hg : GoodOn S Val D w.fs) (ht : ∀ fs ∈ w.trace, GoodOn S Val D fs) :
    GoodOn S Val D (prepareDir mids scratch d w).2.fs ∧
      ∀ fs ∈ (prepareDir mids scratch d w).2.trace, GoodOn S Val D fs := by
  unfold prepareDir
  split
  · split
    · have hrm : GoodOn S Val D (removeTree w.fs d) := by
        apply goodOn_sub hg
        intro q v hq
        unfold removeTree at hq
        split at hq
        · cases hq
        · exact hq
      unfold rmTree
      split
      · rename_i w1 heq
        split at heq
        · cases heq
        · injection heq with _ h2; subst h2; exact ⟨hg, ht⟩
        · injection heq with _ h2; subst h2; exact ⟨hg, ht⟩
      · rename_i w1 heq
        split at heq
        · injection heq with _ h2
          subst h2
          apply makeDirs_good
          · exact hrm
          · intro fs hfs
            simp only [List.mem_append, List.mem_singleton] at hfs
            rcases hfs with (h | h) | h
            · exact ht fs h
            · apply goodOn_sub hg
              intro q v hq
              rcases hm _ _ _ h q with h' | h'
              · rw [← h']; exact hq
              · rw [h'.2] at hq; cases hq
            · subst h; exact hrm
        · cases heq
        · cases heq
    · exact ⟨hg, ht⟩
  · exact makeDirs_good _ _ hg ht

/-- what is left outside the directory is not deleted -/
theorem prepareDir_keeps {mids : FS V → Path → List (FS V)} (scratch : Bool) (d : Path) (w : World V) (q : Path)
    (n : Node V) (hq : ¬ d <+: q) (h : w.fs q = some n) : (prepareDir mids scratch d w).2.fs q = some n := by
  unfold prepareDir
  split
  · split
    · unfold rmTree
      split
      · rename_i w1 heq
        split at heq
        · cases heq
        · injection heq with _ h2; subst h2; exact h
        · injection heq with _ h2; subst h2; exact h
      · rename_i w1 heq
        split at heq
        · injection heq with _ h2
          subst h2
          apply makeDirs_keeps
          simp only [removeTree]
          rw [if_neg hq]; exact h
        · cases heq
        · cases heq
    · exact h
  · exact makeDirs_keeps _ _ _ _ h

/-- what a successful validation leaves behind -/
theorem validate_ok {P : Prims X V A} {mids : FS V → Path → List (FS V)} {o o' : Obj X} {w w' : World V}
    (h : validate P mids o w = (.ok (), o', w')) :
    (validateAxis o.avg).1 = .ok () ∧ o'.avg = (validateAxis o.avg).2 ∧ o'.boot = o.boot ∧ o'.dir = o.dir ∧
      o'.scratch = o.scratch ∧ o'.ext = (P.check o.ext).2 ∧ (P.check o.ext).1 = .ok () ∧ o.boot ≠ .other ∧
      ∃ s, o.scratch = some s ∧ validateSaving mids o.dir s w = (.ok (), w') := by
  unfold validate at h
  split at h
  · cases h
  · rename_i u a ha
    simp only at h
    split at h
    · cases h
    · rename_i hb
      split at h
      · cases h
      · rename_i s hs
        split at h
        · cases h
        · rename_i u1 w1 hw
          simp only [Prod.mk.injEq] at h
          obtain ⟨h1, h2, h3⟩ := h
          subst h2 h3
          rw [ha]
          exact ⟨rfl, rfl, rfl, rfl, rfl, rfl, h1, fun hh => hb hh, s, hs, hw⟩

/-- whatever happens, validation changes only `avg_axis` and the class settings of the object -/
theorem validate_any (P : Prims X V A) (mids : FS V → Path → List (FS V)) (o : Obj X) (w : World V) :
    (validate P mids o w).2.1.avg = (validateAxis o.avg).2 ∧ (validate P mids o w).2.1.boot = o.boot ∧
      (validate P mids o w).2.1.dir = o.dir ∧ (validate P mids o w).2.1.scratch = o.scratch ∧
      ((validate P mids o w).2.1.ext = o.ext ∨ (validate P mids o w).2.1.ext = (P.check o.ext).2) ∧
      ((validate P mids o w).2.2 = w ∨
        ∃ s, (validate P mids o w).2.2 = (validateSaving mids o.dir s w).2) := by
  unfold validate
  split
  · rename_i e a ha
    rw [ha]
    exact ⟨rfl, rfl, rfl, rfl, Or.inl rfl, Or.inl rfl⟩
  · rename_i u a ha
    rw [ha]
    simp only
    split
    · exact ⟨rfl, rfl, rfl, rfl, Or.inl rfl, Or.inl rfl⟩
    · split
      · exact ⟨rfl, rfl, rfl, rfl, Or.inl rfl, Or.inl rfl⟩
      · rename_i s hs
        split
        · rename_i e w1 hw
          exact ⟨rfl, rfl, rfl, rfl, Or.inl rfl, Or.inr ⟨s, by rw [hw]⟩⟩
        · rename_i u1 w1 hw
          exact ⟨rfl, rfl, rfl, rfl, Or.inr rfl, Or.inr ⟨s, by rw [hw]⟩⟩

theorem validateSaving_good {S : Name → Prop} {Val : Name → V → Prop} {D : Path → Prop}
    {mids : FS V → Path → List (FS V)} (hm : Deletes mids) (dir : PyDir) (s : Bool) (w : World V)
    (hg : GoodOn S Val D w.fs) (ht : ∀ fs ∈ w.trace, GoodOn S Val D fs) :
    GoodOn S Val D (validateSaving mids dir s w).2.fs ∧
      ∀ fs ∈ (validateSaving mids dir s w).2.trace, GoodOn S Val D fs := by
  cases dir with
  | none => exact ⟨hg, ht⟩
  | other => exact ⟨hg, ht⟩
  | path d => exact prepareDir_good hm s d w hg ht

theorem validate_good {S : Name → Prop} {Val : Name → V → Prop} {D : Path → Prop} (P : Prims X V A)
    {mids : FS V → Path → List (FS V)} (hm : Deletes mids) (o : Obj X) (w : World V)
    (hg : GoodOn S Val D w.fs) (ht : ∀ fs ∈ w.trace, GoodOn S Val D fs) :
    GoodOn S Val D (validate P mids o w).2.2.fs ∧
      ∀ fs ∈ (validate P mids o w).2.2.trace, GoodOn S Val D fs := by
  obtain ⟨-, -, -, -, -, h⟩ := validate_any P mids o w
  rcases h with h | ⟨s, h⟩
  · rw [h]; exact ⟨hg, ht⟩
  · rw [h]; exact validateSaving_good hm o.dir s w hg ht

end Model
