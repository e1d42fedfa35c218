import Verif.Spec.SaveName
import Verif.Lemmas.Env

/-! Helper lemmas about `save_name`. -/

namespace Model
open Np Spec

variable {X V A : Type}

theorem slotBody_boot_of_not_final (C : Cls) (I : ArgInfo A) (P : Prims X V A) (x : X) (avg : PyAxis)
    (boot boot' : PyBoot) {s : Slot A} (h : ¬ IsFinal s) :
    slotBody C I P x avg boot s = slotBody C I P x avg boot' s := by
  cases s with
  | corr => exact absurd trivial h
  | brierDecomp o b => exact absurd trivial h
  | _ => rfl

theorem not_final_of_named {I : ArgInfo A} {s : Slot A} {n : Name} (h : slotName I s = .ok (some n)) : ¬ IsFinal s := by
  obtain ⟨h1, h2⟩ := named_ne h
  cases s with
  | corr => exact absurd rfl h1
  | brierDecomp o b => exact absurd rfl (h2 o b)
  | _ => exact fun h => h

/-- the default names -/
def defaultName : Slot A → Option (List Char)
  | .crps => some "crps".toList
  | .error => some "error".toList
  | .spread => some "spread".toList
  | .sqError => some "sq_error".toList
  | .abError => some "ab_error".toList
  | .rankHist => some "rank".toList
  | .variance => some "variance".toList
  | .fDeterm => some "f_determ".toList
  | .brier _ _ => some "brier".toList
  | .cdf _ _ => some "cdf".toList
  | .roc _ _ => some "roc".toList
  | .sharpness _ _ => some "sharpness".toList
  | .iouDeterm _ _ => some "iou_determ".toList
  | .iouProb _ _ => some "iou_prob".toList
  | .reliability _ _ _ => some "rel".toList
  | .ss _ => some "ss".toList
  | _ => none

theorem slotNameAs_default (I : ArgInfo A) {s : Slot A} (h : s.probOnly = false) :
    slotNameAs I (defaultName s) s = slotName I s := by
  cases s <;> first | rfl | cases h

section
variable (C : Cls) {I : ArgInfo A} (P : Prims X V A) (calls : List (Option (List Char) × Req A))

/-- what the name of a stored result stands for -/
def NVal (I : ArgInfo A) (x : X) (avg : PyAxis) (n : Name) (v : V) : Prop :=
  ∃ s, StoredAs I calls s n ∧ poss (slotBody C I P x avg .none s) (.ok v)

variable {calls} (hc : NoClash I calls) (hf : ∀ q ∈ calls, IsFinal (stored q.2) → q.1 = none)
include hc

theorem nval_iff {s : Slot A} {n : Name} (hs : StoredAs I calls s n) (hfin : ¬ IsFinal s) (x : X) (avg : PyAxis)
    (boot : PyBoot) (v : V) :
    NVal C P calls I x avg n v ↔ poss (slotBody C I P x avg boot s) (.ok v) := by
  rw [slotBody_boot_of_not_final C I P x avg boot .none hfin]
  constructor
  · rintro ⟨s', hs', hp⟩
    rwa [hc s s' n hs hs']
  · exact fun hp => ⟨s, hs, hp⟩

theorem agree_default (x : X) (avg : PyAxis) (boot : PyBoot) (s : Slot A) (n : Name)
    (hs : slotName I s = .ok (some n)) (_ : True) :
    AllIn (fun _ => True) (slotBody C I P x avg boot s) ∧
      ∀ v, NVal C P calls I x avg n v ↔ poss (slotBody C I P x avg boot s) (.ok v) :=
  ⟨allIn_true _, fun v => nval_iff C P hc (Or.inl hs) (not_final_of_named hs) x avg boot v⟩

theorem agree_plain (x : X) (avg : PyAxis) (boot : PyBoot) (r : Req A) :
    Agree (fun _ => True) (NVal C P calls I x avg) (metricProg C I P x avg boot r) :=
  agree_metricProg C I P x avg boot (agree_default C P hc x avg boot) r

include hf

theorem agree_named (x : X) (avg : PyAxis) (boot : PyBoot) {q : Option (List Char) × Req A} (hq : q ∈ calls) :
    Agree (fun _ => True) (NVal C P calls I x avg) (namedProg C I P x avg boot q.1 q.2) := by
  have hv := agree_default C P hc x avg boot
  obtain ⟨name, r⟩ := q
  have hname : ∀ n, slotNameAs I name (stored r) = .ok (some n) → True →
      AllIn (fun _ => True) (slotBody C I P x avg boot (stored r)) ∧
        ∀ v, NVal C P calls I x avg n v ↔ poss (slotBody C I P x avg boot (stored r)) (.ok v) := by
    intro n hn _
    refine ⟨allIn_true _, fun v => nval_iff C P hc (Or.inr ⟨_, hq, rfl, hn⟩) ?_ x avg boot v⟩
    intro hfin
    have := hf _ hq hfin
    simp only at this
    subst this
    unfold slotNameAs at hn
    split at hn
    · cases hn
    · cases hn
  cases r with
  | slot s =>
    simp only [namedProg]
    split
    · trivial
    · exact agree_callName hname (agree_slotBody C I P x avg boot hv s) fun v => agree_slotPost P avg boot s v
  | rmse =>
    refine agree_callName hname (agree_withDet C I P x avg boot hv _) fun v => ?_
    unfold bootOrAvgP
    split
    · trivial
    · intro _; trivial

theorem named_run {mids : FS V → Path → List (FS V)} (hm : Deletion mids) (l : List (NOp X A))
    (hl : ∀ op ∈ l, CallOf calls op ∧ NFromScratch op) {o : Obj X} {w : World V}
    (h : EnvFresh (fun _ => True) (NVal C P calls I) o w) (hr : NSettersReturn C I P mids l o w) :
    EnvFresh (fun _ => True) (NVal C P calls I) (runN C I P mids l o w).1 (runN C I P mids l o w).2 := by
  induction l generalizing o w with
  | nil => exact h
  | cons op l ih =>
    refine ih (fun op' h' => hl op' (by simp [h'])) ?_ hr.2
    obtain ⟨h1, h2⟩ := hl op (by simp)
    cases op with
    | plain op =>
      exact envFresh_step C I (fun _ : Unit => P) (fun _ => True) (NVal C P calls I) () hm
        (fun x avg boot r => agree_plain C P hc x avg boot r) op h h2 hr.1
    | named name r =>
      have hrun := run_clean (namedProg C I P o.ext o.avg o.boot name r)
        (agree_named C P hc hf o.ext o.avg o.boot (q := (name, r)) h1) w (wd := o.wd) h.good
      have hwf' := (wf_run o.wd (namedProg C I P o.ext o.avg o.boot name r) w h.wf).1
      simp only [stepN]
      split
      · rename_i e w1 hrun'
        rw [hrun'] at hrun hwf'
        exact ⟨h.scratch, h.dir, hwf', hrun.2⟩
      · rename_i v w1 hrun'
        rw [hrun'] at hrun hwf'
        exact ⟨h.scratch, h.dir, hwf', hrun.2⟩

end

/-- the possible results of a named call are those of the call with default names, when the name can be made -/
theorem poss_named (C : Cls) (I : ArgInfo A) (P : Prims X V A) (x : X) (avg : PyAxis) (boot : PyBoot)
    (name : Option (List Char)) (r : Req A) {n n' : Option Name} (h1 : slotNameAs I name (stored r) = .ok n)
    (h2 : slotName I (stored r) = .ok n') (res : Except Err V)
    (h : poss (namedProg C I P x avg boot name r) res) : poss (metricProg C I P x avg boot r) res := by
  cases r with
  | slot s =>
    simp only [namedProg, metricProg] at h ⊢
    split at h
    · rename_i hc; rw [if_pos hc]; exact h
    · rename_i hc
      rw [if_neg hc]
      simp only [stored] at h1 h2
      rw [h1] at h
      rw [h2]
      exact h
  | rmse =>
    simp only [namedProg, metricProg, stored] at h h1 h2 ⊢
    rw [h1] at h
    rw [h2]
    exact h

end Model
