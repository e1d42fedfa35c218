import Verif.Lemmas.Pool
import Verif.Lemmas.EndToEnd
import Verif.Spec.Merge

/-! Cutting data in two along an averaged axis. -/

set_option linter.unusedSectionVars false

namespace Lemmas
open Np NDArr Spec Model

/-- two selections that together are all hyperplanes of an averaged axis -/
theorem fiberIdx_cut {s A σ τ k : List Nat} {n : Nat} (hn : n < s.length) (hA : n ∈ A)
    (hσ : (σ ++ τ).Perm (List.range (s.getD n 0))) :
    ((fiberIdx (s.set n σ.length) A k).map (lookAt n σ) ++ (fiberIdx (s.set n τ.length) A k).map (lookAt n τ)).Perm
      (fiberIdx s A k) := by
  have hnd : (σ ++ τ).Nodup := hσ.nodup_iff.2 List.nodup_range
  rw [List.nodup_append] at hnd
  obtain ⟨hn1, hn2, hdis⟩ := hnd
  have hlt : ∀ j ∈ σ ++ τ, j < s.getD n 0 := fun j hj => by simpa using hσ.mem_iff.1 hj
  have hmem : ∀ ρ : List Nat, (∀ j ∈ ρ, j < s.getD n 0) → ∀ j,
      j ∈ (fiberIdx (s.set n ρ.length) A k).map (lookAt n ρ) ↔ (InB s j ∧ dropAxes A j = k) ∧ j.getD n 0 ∈ ρ := by
    intro ρ hρ j
    rw [List.mem_map]
    constructor
    · rintro ⟨i, hi, rfl⟩
      obtain ⟨h1, h2⟩ := mem_fiberIdx.1 hi
      have hi' := getD_lt_of_take hn h1
      have hil : i.length = s.length := by simpa using h1.length
      refine ⟨⟨inB_lookAt hn hρ h1, ?_⟩, ?_⟩
      · rw [lookAt, dropAxes_set, if_pos hA, h2]
      · rw [lookAt, getD_set_self (by omega), List.getD_eq_getElem?_getD, List.getElem?_eq_getElem hi']
        exact List.getElem_mem hi'
    · rintro ⟨⟨h1, h2⟩, hm⟩
      obtain ⟨m, hm, hm'⟩ := List.getElem_of_mem hm
      refine ⟨j.set n m, ?_, ?_⟩
      · rw [mem_fiberIdx, dropAxes_set, if_pos hA]
        exact ⟨inB_set (n := n) h1 hm, h2⟩
      · have hjl : j.length = s.length := h1.length
        rw [lookAt, getD_set_self (by omega), List.set_set, List.getD_eq_getElem?_getD,
          List.getElem?_eq_getElem hm, Option.getD_some, hm', set_getD_self]
  have hnod : ∀ ρ : List Nat, ρ.Nodup → ((fiberIdx (s.set n ρ.length) A k).map (lookAt n ρ)).Nodup := by
    intro ρ hnd
    refine (nodup_fiberIdx _ _ _).map_on ?_
    intro i hi j hj hij
    have h1 := (mem_fiberIdx.1 hi).1
    have h2 := (mem_fiberIdx.1 hj).1
    have hi' := getD_lt_of_take hn h1
    have hj' := getD_lt_of_take hn h2
    have hil : i.length = s.length := by simpa using h1.length
    have hjl : j.length = s.length := by simpa using h2.length
    unfold lookAt at hij
    have h3 : ρ.getD (i.getD n 0) 0 = ρ.getD (j.getD n 0) 0 := by
      have := congrArg (fun l => l.getD n 0) hij
      rwa [getD_set_self (by omega), getD_set_self (by omega)] at this
    have h4 : i.getD n 0 = j.getD n 0 := by
      have g : ∀ m (hm : m < ρ.length), ρ.getD m 0 = ρ[m] := fun m hm => by
        rw [List.getD_eq_getElem?_getD, List.getElem?_eq_getElem hm]; rfl
      rw [g _ hi', g _ hj'] at h3
      exact (hnd.getElem_inj_iff).1 h3
    have h5 : (i.set n (ρ.getD (i.getD n 0) 0)).set n (i.getD n 0) =
        (j.set n (ρ.getD (j.getD n 0) 0)).set n (j.getD n 0) := by
      rw [hij, h4]
    rwa [List.set_set, List.set_set, set_getD_self, set_getD_self] at h5
  have m1 := hmem σ fun j hj => hlt j (List.mem_append_left _ hj)
  have m2 := hmem τ fun j hj => hlt j (List.mem_append_right _ hj)
  rw [List.perm_ext_iff_of_nodup]
  · intro j
    rw [List.mem_append, m1, m2, mem_fiberIdx]
    constructor
    · rintro (⟨h, -⟩ | ⟨h, -⟩) <;> exact h
    · intro h
      have hj : j.getD n 0 ∈ σ ++ τ := hσ.mem_iff.2 (by simpa using getD_lt_of_inB h.1 hn)
      rcases List.mem_append.1 hj with hj | hj
      · exact .inl ⟨h, hj⟩
      · exact .inr ⟨h, hj⟩
  · rw [List.nodup_append]
    refine ⟨hnod σ hn1, hnod τ hn2, ?_⟩
    intro a ha b hb e
    subst e
    exact hdis _ ((m1 a).1 ha).2 _ ((m2 a).1 hb).2 rfl
  · exact nodup_fiberIdx _ _ _

theorem pairsAt_cut {α β : Type} [Inhabited α] [Inhabited β] {f : NDArr α} {o : NDArr β} (hsh : f.shape = o.shape)
    {A σ τ k : List Nat} {n : Nat} (hn : n < f.shape.length) (hA : n ∈ A)
    (hσ : (σ ++ τ).Perm (List.range (f.shape.getD n 0))) :
    (pairsAt f o A k).Perm (pairsAt (takeAlong f n σ) (takeAlong o n σ) A k ++
      pairsAt (takeAlong f n τ) (takeAlong o n τ) A k) := by
  have e : ∀ ρ : List Nat, pairsAt (takeAlong f n ρ) (takeAlong o n ρ) A k =
      ((fiberIdx (f.shape.set n ρ.length) A k).map (lookAt n ρ)).map fun i => (f.get i, o.get i) := by
    intro ρ
    unfold pairsAt
    rw [shape_takeAlong, List.map_map]
    refine List.map_congr_left fun i hi => ?_
    have hi := (mem_fiberIdx.1 hi).1
    rw [get_takeAlong f hi, get_takeAlong o (by rw [← hsh]; exact hi)]
    rfl
  rw [e σ, e τ, ← List.map_append]
  exact ((fiberIdx_cut hn hA hσ).map _).symm

variable {K : Type} [Field K] [LinearOrder K] [IsStrictOrderedRing K]

theorem present_length_both (g : K → K → K) (Q : List (Fl K × Fl K)) :
    (present (Q.map (Spec.both g))).length = (complete Q).length := by
  induction Q with
  | nil => rfl
  | cons p Q ih =>
    obtain ⟨x, y⟩ := p
    cases x <;> cases y
    · exact ih
    · exact ih
    · exact ih
    · exact congrArg Nat.succ ih

theorem present_append (l m : List (Fl K)) : present (l ++ m) = present l ++ present m := List.filterMap_append

theorem none_mem_of_present_nil {l : List (Fl K)} (h : l ≠ []) (hp : present l = []) : none ∈ l := by
  obtain ⟨a, t, rfl⟩ := List.exists_cons_of_ne_nil h
  cases a with
  | none => simp
  | some a => simp [present] at hp

/-- the average of two lists taken together -/
theorem isPooled_of {skip : Bool} {l l₁ l₂ : List (Fl K)} (h : l.Perm (l₁ ++ l₂)) (h1 : l₁ ≠ []) (h2 : l₂ ≠ [])
    {v v₁ v₂ : Fl K} (hv : IsAvg skip l v) (hv1 : IsAvg skip l₁ v₁) (hv2 : IsAvg skip l₂ v₂) :
    IsPooled skip (present l₁).length (present l₂).length v₁ v₂ v := by
  have hp : (present l).Perm (present l₁ ++ present l₂) := by
    rw [← present_append]; exact h.filterMap _
  have hm : none ∈ l ↔ none ∈ l₁ ∨ none ∈ l₂ := by rw [h.mem_iff, List.mem_append]
  unfold IsAvg at hv hv1 hv2
  constructor
  · rintro a b rfl rfl
    split at hv1
    · cases hv1
    rename_i g1
    split at hv2
    · cases hv2
    rename_i g2
    rw [not_or] at g1 g2
    cases hv1
    cases hv2
    have hpos1 : ((present l₁).length : K) ≠ 0 := by exact_mod_cast (List.length_pos_iff.2 g1.2).ne'
    have hpos2 : ((present l₂).length : K) ≠ 0 := by exact_mod_cast (List.length_pos_iff.2 g2.2).ne'
    rw [if_neg] at hv
    · rw [hv]
      unfold avg
      rw [hp.sum_eq, hp.length_eq, List.sum_append, List.length_append, mul_div_cancel₀ _ hpos1,
        mul_div_cancel₀ _ hpos2]
      push_cast
      rfl
    · rw [not_or]
      refine ⟨fun ⟨e, hn⟩ => (hm.1 hn).elim (fun hn => g1.1 ⟨e, hn⟩) fun hn => g2.1 ⟨e, hn⟩, fun e => ?_⟩
      rw [e] at hp
      have := hp.nil_eq
      exact g1.2 (List.append_eq_nil_iff.1 this.symm).1
  · rintro rfl rfl
    have g1 : present l₁ = [] := by
      by_contra hne
      rw [if_neg (by simpa using hne)] at hv1
      cases hv1
    rw [g1, List.nil_append] at hp
    simp only [Bool.true_eq_false, false_and, false_or] at hv hv2
    have e : present l = [] ↔ present l₂ = [] := by
      rw [← List.length_eq_zero_iff, hp.length_eq, List.length_eq_zero_iff]
    by_cases hl : present l₂ = []
    · rw [if_pos hl] at hv2; rw [if_pos (e.2 hl)] at hv; rw [hv, hv2]
    · rw [if_neg hl] at hv2; rw [if_neg fun h => hl (e.1 h)] at hv; rw [hv, hv2, avg, avg, hp.sum_eq, hp.length_eq]
  · rintro rfl rfl
    have g2 : present l₂ = [] := by
      by_contra hne
      rw [if_neg (by simpa using hne)] at hv2
      cases hv2
    rw [g2, List.append_nil] at hp
    simp only [Bool.true_eq_false, false_and, false_or] at hv hv1
    have e : present l = [] ↔ present l₁ = [] := by
      rw [← List.length_eq_zero_iff, hp.length_eq, List.length_eq_zero_iff]
    by_cases hl : present l₁ = []
    · rw [if_pos hl] at hv1; rw [if_pos (e.2 hl)] at hv; rw [hv, hv1]
    · rw [if_neg hl] at hv1; rw [if_neg fun h => hl (e.1 h)] at hv; rw [hv, hv1, avg, avg, hp.sum_eq, hp.length_eq]
  · rintro rfl hn
    have : none ∈ l := by
      rw [hm]
      rcases hn with rfl | rfl
      · left
        by_cases g : (false = false ∧ none ∈ l₁) ∨ present l₁ = []
        · exact g.elim (·.2) fun g => none_mem_of_present_nil h1 g
        · rw [if_neg g] at hv1; cases hv1
      · right
        by_cases g : (false = false ∧ none ∈ l₂) ∨ present l₂ = []
        · exact g.elim (·.2) fun g => none_mem_of_present_nil h2 g
        · rw [if_neg g] at hv2; cases hv2
    rw [if_pos (.inl ⟨rfl, this⟩)] at hv
    exact hv

end Lemmas
