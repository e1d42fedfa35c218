import Verif.Lemmas.Rank
import Verif.Props.Ensemble

/-!
# Rank histograms: C14, C15, C16
-/

set_option linter.unusedSectionVars false

namespace Props
open Np NDArr Spec Model Lemmas

variable {K : Type} [Field K] [LinearOrder K] [IsStrictOrderedRing K]

theorem countP_lt (M : List (Fl K)) (x : Fl K) : (M.countP fun y => Fl.lt y x) = numLt M x := by
  unfold numLt
  rw [List.countP_eq_length_filter]
  congr 1
  apply List.filter_congr
  intro y _
  rw [Bool.eq_iff_iff, lt_iff_LtP]; simp

/-- members at or below = members below plus members equal -/
theorem numLe_eq (M : List (Fl K)) (x : K) :
    numLe M (some x) = numLt M (some x) + M.countP fun y => y = some x := by
  classical
  unfold numLe numLt
  induction M with
  | nil => rfl
  | cons y M ih =>
    rw [List.filter_cons, List.filter_cons, List.countP_cons]
    cases y with
    | none =>
      have h1 : ¬ LeP none (some x) := by simp [LeP]
      have h2 : ¬ LtP none (some x) := by simp [LtP]
      simp [h1, h2, ih]
    | some y =>
      have p1 : LeP (some y) (some x) ↔ y ≤ x := by simp [LeP]
      have p2 : LtP (some y) (some x) ↔ y < x := by simp [LtP]
      simp only [p1, p2, decide_eq_true_eq, Option.some_inj]
      rcases lt_trichotomy y x with h | h | h
      · rw [if_pos h.le, if_pos h, if_neg h.ne, List.length_cons, List.length_cons, ih]; omega
      · subst h
        rw [if_pos le_rfl, if_neg (lt_irrefl _), if_pos rfl, List.length_cons, ih]; omega
      · rw [if_neg (not_le.2 h), if_neg (not_lt.2 h.le), if_neg h.ne', ih]; omega

theorem numLe_le (M : List (Fl K)) (x : Fl K) : numLe M x ≤ M.length := List.length_filter_le _ _

/-- an offset of at most the number of ties gives a possible rank -/
theorem possible_of_offset {x : K} {M : List (Fl K)} (hM : none ∉ M) {r : Option Nat} {e : Nat}
    (he : e ≤ tiesCol (some x :: M)) (hr : r = (rankCol (some x :: M)).map fun v => v + e) :
    ∃ n, r = some n ∧ PossibleRank M (some x) n ∧
      (numLe M (some x) = numLt M (some x) → n = 1 + numLt M (some x)) := by
  rw [tiesCol_cons hM] at he
  rw [rankCol_cons hM, countP_lt] at hr
  have h := numLe_eq M x
  simp only [Option.map_some] at hr
  refine ⟨_, hr, ⟨by omega, by omega⟩, fun h' => by omega⟩

theorem not_none_fiber {f : NDArr (Fl K)} (hf : none ∉ f.data) (A k : List Nat) :
    none ∉ fiber f A k := by
  unfold fiber
  intro h
  obtain ⟨i, hi, hg⟩ := List.mem_map.1 h
  apply hf
  rw [data_eq f, ← hg]
  exact List.mem_map.2 ⟨i, mem_allIdx.2 (mem_fiberIdx.1 hi).1, rfl⟩

theorem get_mem_data {α : Type} [Inhabited α] (a : NDArr α) {k : List Nat} (hk : InB a.shape k) :
    a.get k ∈ a.data := by
  rw [data_eq a]
  exact List.mem_map.2 ⟨k, mem_allIdx.2 hk, rfl⟩

theorem get_some {o : NDArr (Fl K)} (ho : none ∉ o.data) {k : List Nat} (hk : InB o.shape k) :
    ∃ x, o.get k = some x := by
  cases h : o.get k with
  | none => exact absurd (h ▸ get_mem_data o hk) ho
  | some x => exact ⟨x, rfl⟩

/-- **C14**: without missing values, whatever the random tie-breaking, the number of workers and the
split axis, every position gets a rank between `1 + #(members < obs)` and `1 + #(members ≤ obs)` (hence
between 1 and members + 1), exactly the former when no member ties the observation. -/
theorem C14_possible_rank (npFloat : Bool) (workers : Nat) (mapAxis : Int)
    (draw : Nat → Nat → Nat → Nat) (f o : NDArr (Fl K)) {ax : Int} (hax : AxisOK f.shape.length ax)
    (ho : o.shape = posShape f.shape ax) (hne : o.shape ≠ []) (hw : MapOK workers mapAxis o.shape)
    (hf : none ∉ f.data) (hon : none ∉ o.data) :
    ∃ r, rankHistogram false npFloat workers mapAxis draw f o ax = .ok r ∧ r.shape = o.shape ∧
      ∀ k, InB o.shape k → ∃ n, r.get k = some n ∧ PossibleRank (membersAt f ax k) (o.get k) n ∧
        1 ≤ n ∧ n ≤ f.shape.getD (axisNum f.shape.length ax) 0 + 1 ∧
        ((∀ y ∈ membersAt f ax k, y ≠ o.get k) → n = 1 + numLt (membersAt f ax k) (o.get k)) := by
  obtain ⟨c, c1, c2, c3⟩ := mergeObs_spec f o hax ho hne
  obtain ⟨r, r1, r2, r3⟩ := rankAll_spec workers mapAxis draw c c2 hw
  refine ⟨r, ?_, r2, ?_⟩
  · unfold rankHistogram
    simp only [Bool.false_eq_true, if_false]
    rw [if_neg hf, if_neg hon, c1]
    exact r1
  · intro k hk
    obtain ⟨e, he, hr⟩ := r3 k hk
    rw [c3 k hk] at he hr
    obtain ⟨x, hx⟩ := get_some hon hk
    have hM : none ∉ membersAt f ax k := not_none_fiber hf _ _
    rw [hx] at he hr ⊢
    obtain ⟨n, hn, hp, ht⟩ := possible_of_offset hM he hr
    refine ⟨n, hn, hp, ?_, ?_, ?_⟩
    · have := hp.1; omega
    · have h1 := hp.2
      have h2 := numLe_le (membersAt f ax k) (some x)
      rw [membersAt_length f hax (ho ▸ hk)] at h2
      omega
    · intro hall
      apply ht
      rw [numLe_eq]
      have : (membersAt f ax k).countP (fun y => y = some x) = 0 := by
        rw [List.countP_eq_zero]
        intro y hy
        simpa using hall y hy
      omega

/-- **C14** with NaN skipping (numpy still having `np.float`): a position with a missing value gets a
NaN rank, every other a possible rank. -/
theorem C14_skip (workers : Nat) (mapAxis : Int) (draw : Nat → Nat → Nat → Nat) (f o : NDArr (Fl K))
    {ax : Int} (hax : AxisOK f.shape.length ax) (ho : o.shape = posShape f.shape ax)
    (hne : o.shape ≠ []) (hw : MapOK workers mapAxis o.shape) :
    ∃ r, rankHistogram true true workers mapAxis draw f o ax = .ok r ∧ r.shape = o.shape ∧
      ∀ k, InB o.shape k →
        ((o.get k = none ∨ none ∈ membersAt f ax k) → r.get k = none) ∧
        (o.get k ≠ none → none ∉ membersAt f ax k →
          ∃ n, r.get k = some n ∧ PossibleRank (membersAt f ax k) (o.get k) n ∧
            ((∀ y ∈ membersAt f ax k, y ≠ o.get k) → n = 1 + numLt (membersAt f ax k) (o.get k))) := by
  have hlt := axisNum_lt hax
  obtain ⟨c, c1, c2, c3⟩ := mergeObs_spec f o hax ho hne
  obtain ⟨r, r1, r2, r3⟩ := rankAll_spec workers mapAxis draw c c2 hw
  have hok : OptOK f.shape.length (some [ax]) := ⟨by simpa using hax, by simp⟩
  obtain ⟨s, s1, s2, s3⟩ := reduceAxes_spec fsum f hok
  have hnums : nums f.shape.length (some [ax]) = [axisNum f.shape.length ax] := rfl
  rw [hnums, dropAxes_single hlt] at s2 s3
  have hso : s.shape = o.shape := s2.trans ho.symm
  obtain ⟨mk, k1, k2, k3⟩ := zipWith_spec (fun x y => Option.isNone x || Option.isNone y) o s hso.symm
  obtain ⟨q, q1, q2, q3⟩ := zipWith_spec (fun (x : Option Nat) b => if b then none else x) r mk
    (r2.trans k2.symm)
  refine ⟨q, ?_, q2.trans r2, ?_⟩
  · unfold rankHistogram
    simp only [if_true, s1, bind, Except.bind, k1, c1, r1]
    exact q1
  · intro k hk
    have hsum : (s.get k).isNone = true ↔ none ∈ membersAt f ax k := by
      have : s.get k = fsum (membersAt f ax k) := s3 k (by rw [← s2, hso]; exact hk)
      rw [this]
      constructor
      · intro h
        by_contra h'
        obtain ⟨l, hl⟩ := exists_map_some h'
        rw [hl, fsum_some] at h
        simp at h
      · intro h; rw [fsum_none h]; rfl
    rw [q3 k (r2 ▸ hk), k3 k hk]
    refine ⟨?_, ?_⟩
    · intro h
      rw [if_pos]
      rcases h with h | h
      · simp [h]
      · simp [hsum.2 h]
    · intro h1 h2
      obtain ⟨x, hx⟩ := Option.ne_none_iff_exists'.1 h1
      have hm : (Option.isNone (o.get k) || Option.isNone (s.get k)) = false := by
        rw [Bool.or_eq_false_iff]
        refine ⟨by simp [hx], ?_⟩
        rw [← Bool.not_eq_true, hsum]; exact h2
      rw [hm]
      simp only [Bool.false_eq_true, if_false]
      obtain ⟨e, he, hr⟩ := r3 k hk
      rw [c3 k hk] at he hr
      rw [hx] at he hr ⊢
      obtain ⟨n, hn, hp, ht⟩ := possible_of_offset h2 he hr
      refine ⟨n, hn, hp, fun hall => ht ?_⟩
      rw [numLe_eq]
      have : (membersAt f ax k).countP (fun y => y = some x) = 0 := by
        rw [List.countP_eq_zero]
        intro y hy
        simpa using hall y hy
      omega

/-- **C14**, error branches: a missing value without skipping is an `AssertionError`; and skipping under
a numpy without `np.float` always fails. -/
theorem C14_errors (npFloat : Bool) (workers : Nat) (mapAxis : Int)
    (draw : Nat → Nat → Nat → Nat) (f o : NDArr (Fl K)) (ax : Int) :
    ((none ∈ f.data ∨ none ∈ o.data) →
      rankHistogram false npFloat workers mapAxis draw f o ax = .error .assertion) ∧
    ∀ r, rankHistogram true false workers mapAxis draw f o ax ≠ .ok r := by
  constructor
  · intro h
    unfold rankHistogram
    simp only [Bool.false_eq_true, if_false]
    by_cases hf : none ∈ f.data
    · rw [if_pos hf]
    · rw [if_neg hf, if_pos (h.resolve_left hf)]
  · intro r h
    unfold rankHistogram at h
    simp only [if_true, Bool.false_eq_true, if_false, bind, Except.bind] at h
    repeat (split at h; · cases h)
    cases h

/-! ### C15 -/

/-- number of members equal to the observation at position `k` -/
def tiesAt (f o : NDArr (Fl K)) (ax : Int) (k : List Nat) : Nat :=
  (membersAt f ax k).countP fun y => y = o.get k

/-- **C15** where it holds: with one worker, any combination of possible ranks at the positions that
have more ties than some other position (in particular, at all tied positions if some position has no
tie) is reached by some random outcome. -/
theorem C15_reachable_partial (npFloat : Bool) (mapAxis : Int) (f o : NDArr (Fl K)) {ax : Int}
    (hax : AxisOK f.shape.length ax) (ho : o.shape = posShape f.shape ax) (hne : o.shape ≠ [])
    (hf : none ∉ f.data) (hon : none ∉ o.data) (target : List Nat → Nat)
    (htarget : ∀ k, InB o.shape k → PossibleRank (membersAt f ax k) (o.get k) (target k)) :
    ∃ draw r, rankHistogram false npFloat 1 mapAxis draw f o ax = .ok r ∧
      ∀ k, InB o.shape k → (∃ k', InB o.shape k' ∧ tiesAt f o ax k' < tiesAt f o ax k) →
        r.get k = some (target k) := by
  obtain ⟨c, c1, c2, c3⟩ := mergeObs_spec f o hax ho hne
  have hct : c.shape.tail = o.shape := by rw [c2]; rfl
  have hties : ∀ k, InB o.shape k → tiesCol (column c k) = tiesAt f o ax k ∧
      rankCol (column c k) = some (1 + numLt (membersAt f ax k) (o.get k)) ∧
      numLe (membersAt f ax k) (o.get k) = numLt (membersAt f ax k) (o.get k) + tiesAt f o ax k := by
    intro k hk
    obtain ⟨x, hx⟩ := get_some hon hk
    have hM : none ∉ membersAt f ax k := not_none_fiber hf _ _
    unfold tiesAt
    rw [c3 k hk, hx, tiesCol_cons hM, rankCol_cons hM, countP_lt, numLe_eq]
    exact ⟨rfl, rfl, rfl⟩
  obtain ⟨d, hd⟩ := rankdata_reach c
    (fun k => target k - (1 + numLt (membersAt f ax k) (o.get k))) (by
      intro k hk
      rw [hct] at hk
      have h1 := hties k hk
      have h2 := htarget k hk
      unfold PossibleRank at h2
      rw [h1.1]
      omega)
  refine ⟨fun _ => d, rankdata d c, ?_, ?_⟩
  · unfold rankHistogram
    simp only [Bool.false_eq_true, if_false]
    rw [if_neg hf, if_neg hon, c1]
    simp only [bind, Except.bind]
    unfold rankAll
    rw [if_pos rfl]
  · rintro k hk ⟨k', hk', hlt⟩
    rw [hd k (hct ▸ hk) ⟨k', hct ▸ hk', by rw [(hties k hk).1, (hties k' hk').1]; exact hlt⟩,
      (hties k hk).2.1]
    have h2 := htarget k hk
    unfold PossibleRank at h2
    simp only [Option.map_some, Option.some_inj]
    omega

/-- **C15** is false: with one worker, positions with the smallest tie count are never randomised; if
every position has the same number of ties, all observations get the lowest possible rank, whatever the
random numbers. -/
theorem C15_false (npFloat : Bool) (mapAxis : Int) (draw : Nat → Nat → Nat → Nat)
    (f o : NDArr (Fl K)) {ax : Int}
    (hax : AxisOK f.shape.length ax) (ho : o.shape = posShape f.shape ax) (hne : o.shape ≠ [])
    (hf : none ∉ f.data) (hon : none ∉ o.data)
    (hsame : ∀ k k', InB o.shape k → InB o.shape k' → tiesAt f o ax k = tiesAt f o ax k') :
    ∃ r, rankHistogram false npFloat 1 mapAxis draw f o ax = .ok r ∧
      ∀ k, InB o.shape k → r.get k = some (1 + numLt (membersAt f ax k) (o.get k)) := by
  obtain ⟨c, c1, c2, c3⟩ := mergeObs_spec f o hax ho hne
  have hct : c.shape.tail = o.shape := by rw [c2]; rfl
  have hties : ∀ k, InB o.shape k → tiesCol (column c k) = tiesAt f o ax k ∧
      rankCol (column c k) = some (1 + numLt (membersAt f ax k) (o.get k)) := by
    intro k hk
    obtain ⟨x, hx⟩ := get_some hon hk
    have hM : none ∉ membersAt f ax k := not_none_fiber hf _ _
    unfold tiesAt
    rw [c3 k hk, hx, tiesCol_cons hM, rankCol_cons hM, countP_lt]
    exact ⟨rfl, rfl⟩
  refine ⟨rankdata (draw 0) c, ?_, ?_⟩
  · unfold rankHistogram
    simp only [Bool.false_eq_true, if_false]
    rw [if_neg hf, if_neg hon, c1]
    simp only [bind, Except.bind]
    unfold rankAll
    rw [if_pos rfl]
  · intro k hk
    rw [(rankdata_spec (draw 0) c (hct ▸ hk)).1 ?_, (hties k hk).2]
    rintro ⟨k', hk', hlt⟩
    rw [hct] at hk'
    rw [(hties k hk).1, (hties k' hk').1, hsame k k' hk hk'] at hlt
    exact lt_irrefl _ hlt

/-- a concrete instance of `C15_false`: two positions, each with one member equal to the observation -/
example : ∀ (o : NDArr (Fl ℚ)), o = ⟨[2], [some 1, some 1], rfl⟩ →
    okAnd (rankHistogram (K := ℚ) false true 1 (-1) (fun _ _ _ => 1)
      ⟨[2, 1], [some 1, some 1], rfl⟩ o (-1)) (fun r => r.data = [some 1, some 1]) = true := by
  rintro o rfl
  decide +kernel

/-! ### C16 -/

/-- **C16**: without ties the result does not depend on the number of workers, the split axis, or the
random numbers. (With ties every result is an array of possible ranks: `C14_possible_rank`.) -/
theorem C16_workers (npFloat : Bool) (w w' : Nat) (a a' : Int) (draw draw' : Nat → Nat → Nat → Nat)
    (f o : NDArr (Fl K)) {ax : Int} (hax : AxisOK f.shape.length ax)
    (ho : o.shape = posShape f.shape ax) (hne : o.shape ≠ []) (hw : MapOK w a o.shape)
    (hw' : MapOK w' a' o.shape) (hf : none ∉ f.data) (hon : none ∉ o.data)
    (hnt : ∀ k, InB o.shape k → ∀ y ∈ membersAt f ax k, y ≠ o.get k) :
    ∃ r, rankHistogram false npFloat w a draw f o ax = .ok r ∧
      rankHistogram false npFloat w' a' draw' f o ax = .ok r := by
  obtain ⟨r, h1, h2, h3⟩ := C14_possible_rank npFloat w a draw f o hax ho hne hw hf hon
  obtain ⟨r', g1, g2, g3⟩ := C14_possible_rank npFloat w' a' draw' f o hax ho hne hw' hf hon
  refine ⟨r, h1, ?_⟩
  rw [g1]
  congr 1
  apply ext_get (g2.trans h2.symm)
  intro k hk
  rw [g2] at hk
  obtain ⟨n, hn, -, -, -, hn2⟩ := h3 k hk
  obtain ⟨n', hn', -, -, -, hn2'⟩ := g3 k hk
  rw [hn, hn', hn2 (hnt k hk), hn2' (hnt k hk)]

/-- **C16** with NaN skipping. -/
theorem C16_workers_skip (w w' : Nat) (a a' : Int) (draw draw' : Nat → Nat → Nat → Nat)
    (f o : NDArr (Fl K)) {ax : Int} (hax : AxisOK f.shape.length ax)
    (ho : o.shape = posShape f.shape ax) (hne : o.shape ≠ []) (hw : MapOK w a o.shape)
    (hw' : MapOK w' a' o.shape)
    (hnt : ∀ k, InB o.shape k → ∀ y ∈ membersAt f ax k, y ≠ o.get k) :
    ∃ r, rankHistogram true true w a draw f o ax = .ok r ∧
      rankHistogram true true w' a' draw' f o ax = .ok r := by
  obtain ⟨r, h1, h2, h3⟩ := C14_skip w a draw f o hax ho hne hw
  obtain ⟨r', g1, g2, g3⟩ := C14_skip w' a' draw' f o hax ho hne hw'
  refine ⟨r, h1, ?_⟩
  rw [g1]
  congr 1
  apply ext_get (g2.trans h2.symm)
  intro k hk
  rw [g2] at hk
  by_cases hm : o.get k = none ∨ none ∈ membersAt f ax k
  · rw [(h3 k hk).1 hm, (g3 k hk).1 hm]
  · rw [not_or] at hm
    obtain ⟨n, hn, -, hn2⟩ := (h3 k hk).2 hm.1 hm.2
    obtain ⟨n', hn', -, hn2'⟩ := (g3 k hk).2 hm.1 hm.2
    rw [hn, hn', hn2 (hnt k hk), hn2' (hnt k hk)]

/-! ### examples -/

example : MapOK 4 (-1) [2, 3] := Or.inr ⟨by decide, by decide, by decide⟩

example : okAnd (rankHistogram (K := ℚ) false true 4 (-1) (fun _ _ j => j)
    ⟨[2, 2, 1], [some 1, some 2, some 3, some 4], rfl⟩ ⟨[2, 2], [some 0, some 5, some 3, some 4], rfl⟩
    (-1)) (fun r => r.data = [some 1, some 2, some 1, some 1]) = true := by decide +kernel

/-- one tied and one untied position: the tie is broken by the random number -/
example : okAnd (rankHistogram (K := ℚ) false true 1 (-1) (fun _ _ _ => 1)
    ⟨[2, 1], [some 1, some 2], rfl⟩ ⟨[2], [some 1, some 5], rfl⟩ (-1))
    (fun r => r.data = [some 2, some 2]) = true := by decide +kernel

end Props
