import Verif.Lemmas.Integration
import Mathlib.Algebra.Order.Ring.Rat
import Mathlib.Algebra.BigOperators.Ring.Finset
import Mathlib.Algebra.Order.BigOperators.Ring.Finset
import Mathlib.Tactic.Positivity

/-!
# Numerical integration: C28 - C32
-/

set_option linter.unusedSectionVars false

namespace Props
open Np NDArr Model

variable {K : Type} [Field K] [LinearOrder K] [IsStrictOrderedRing K]

/-- the interleaving oracle only reorders the element writes -/
def OrderOK (I : Integ K) : Prop := ∀ l, (I.order l).Perm l

/-- when an integration succeeds and with which value: the number of cores, the completion order, the
memory mode and the interleaving of the writes do not occur on the right hand side except for the guard on
empty files -/
theorem integrate_iff (I : Integ K) (ho : OrderOK I) (kind : Kind) (w : IWorld K) (r : NDArr (Fl K)) :
    (integrate I kind w).1 = .ok r ↔
      (∃ p, suppress I.cores w.env = .ok p) ∧ (I.lessMemory = true → I.seq.length * I.shape.prod ≠ 0) ∧
      ∃ rows, mapE I.row I.seq = .ok rows ∧ rows ≠ [] ∧ (∀ q ∈ rows, q.shape = I.shape) ∧
        r = ofFn I.shape fun k => combineAt kind I.seq fun i => (rows.getD i default).get k := by
  unfold integrate
  cases hsup : suppress I.cores w.env with
  | error e => simp
  | ok p =>
    obtain ⟨b, env1⟩ := p
    simp only [Except.ok.injEq, exists_eq', true_and]
    by_cases hsz : I.lessMemory = true ∧ I.seq.length * I.shape.prod = 0
    · rw [if_pos hsz]
      constructor
      · intro h; cases h
      · rintro ⟨h, -⟩; exact absurd hsz.2 (h hsz.1)
    · rw [if_neg hsz]
      have hg : I.lessMemory = true → I.seq.length * I.shape.prod ≠ 0 := fun h1 h2 => hsz ⟨h1, h2⟩
      have hbody : ∀ w2 : IWorld K, (I.lessMemory = true → w2.files I.scratch =
          some (List.replicate (I.seq.length * I.shape.prod) (some 0))) →
          ((integBody I kind w2).1 = .ok r ↔
            ∃ rows, mapE I.row I.seq = .ok rows ∧ rows ≠ [] ∧ (∀ q ∈ rows, q.shape = I.shape) ∧
            r = ofFn I.shape fun k => combineAt kind I.seq fun i => (rows.getD i default).get k) := by
        intro w2 hw2
        unfold integBody
        cases hrows : gridRows I.cores I.pick I.row I.seq with
        | error e =>
          simp only [reduceCtorEq, false_iff]
          rintro ⟨rows, h1, -⟩
          rw [(gridRows_iff I.cores I.pick I.row I.seq rows).2 h1] at hrows
          cases hrows
        | ok rows =>
          have hm := (gridRows_iff I.cores I.pick I.row I.seq rows).1 hrows
          have hlen : rows.length = I.seq.length := mapE_length hm
          have huniq : (∃ rows, mapE I.row I.seq = .ok rows ∧ rows ≠ [] ∧
              (∀ q ∈ rows, q.shape = I.shape) ∧
              r = ofFn I.shape fun k => combineAt kind I.seq fun i => (rows.getD i default).get k) ↔
              (rows ≠ [] ∧ (∀ q ∈ rows, q.shape = I.shape) ∧
              r = ofFn I.shape fun k => combineAt kind I.seq fun i => (rows.getD i default).get k) := by
            constructor
            · rintro ⟨rows', h1, h2⟩
              rw [hm] at h1; cases h1; exact h2
            · intro h; exact ⟨rows, hm, h⟩
          rw [huniq]
          simp only
          by_cases hl : I.lessMemory = true
          · rw [if_pos hl]
            by_cases hs : ∀ q ∈ rows, q.shape = I.shape
            · rw [if_pos hs, hw2 hl]
              have hne : rows ≠ [] := by
                rintro rfl
                apply hg hl
                rw [← hlen]; simp
              simp only
              have hf := fun i (hi : i < rows.length) => fileRow_spec (s := I.shape) hs
                (init := List.replicate (I.seq.length * I.shape.prod) (some 0)) (by simp [hlen])
                (ho (rows.zipIdx.flatMap fun p => rowWrites I.shape.prod p.2 p.1)) hi
              rw [combineFile_spec kind hne hlen hs hf]
              simp only [Except.ok.injEq]
              constructor
              · rintro rfl; exact ⟨hne, hs, rfl⟩
              · rintro ⟨-, -, rfl⟩; rfl
            · rw [if_neg hs]
              simp [hs]
          · rw [if_neg hl]
            simp only
            constructor
            · intro h
              have hcs : ∃ A, stack0 rows = .ok A ∧ A.shape = I.seq.length :: I.shape := by
                unfold combineRows at h
                cases hst : stack0 rows with
                | error e => simp [hst, bind, Except.bind] at h
                | ok A =>
                  simp only [hst, bind, Except.bind] at h
                  split at h
                  · rename_i hsh; exact ⟨A, rfl, hsh⟩
                  · cases h
              obtain ⟨A, hA, hsh⟩ := hcs
              have hs := stack0_shape hA hsh
              have hne : rows ≠ [] := by rintro rfl; cases hA
              rw [combineRows_spec kind hne hlen hs] at h
              cases h
              exact ⟨hne, hs, rfl⟩
            · rintro ⟨hne, hs, rfl⟩
              exact combineRows_spec kind hne hlen hs
      have hkey := hbody (if I.lessMemory = true then
        IWorld.setFile { w with env := env1 } I.scratch
          (some (List.replicate (I.seq.length * I.shape.prod) (some 0))) else { w with env := env1 })
        (fun h => by rw [if_pos h]; simp [IWorld.setFile])
      constructor
      · intro h
        refine ⟨hg, hkey.1 ?_⟩
        revert h
        split
        · rename_i heq; intro h; cases h
        · rename_i r' w3 heq
          intro h
          rw [heq]
          exact h
      · rintro ⟨-, h⟩
        have := hkey.2 h
        split
        · rename_i heq; rw [heq] at this; cases this
        · rename_i r' w3 heq
          rw [heq] at this
          exact this

/-! ### C29 -/

/-- **C29**: whatever order the tasks finish in, each is collected exactly once. -/
theorem C29_exactly_once {α : Type} (pick : Nat → Nat) (tasks : List α) :
    (rayIter pick tasks.length tasks).Perm tasks :=
  rayIter_perm pick _ _ rfl

/-- **C29**: for every number of workers and every completion order, an integration (any of the three, in either
memory mode) succeeds exactly when the single-core one does, with the same array. -/
theorem C29_schedule (I : Integ K) (ho : OrderOK I) (kind : Kind) (w : IWorld K) (cores : Int)
    (pick : Nat → Nat) (r : NDArr (Fl K)) :
    (integrate { I with cores := cores, pick := pick } kind w).1 = .ok r ↔
      (integrate { I with cores := 1 } kind w).1 = .ok r := by
  rw [integrate_iff _ (show OrderOK { I with cores := cores, pick := pick } from ho),
    integrate_iff _ (show OrderOK { I with cores := 1 } from ho)]
  have : (∃ p, suppress cores w.env = .ok p) ↔ (∃ p, suppress 1 w.env = .ok p) := by
    unfold suppress
    cases w.env.read "pyanen_tqdm_disable" with
    | error e => simp [bind, Except.bind]
    | ok d =>
      cases hd : strtobool d with
      | error e => simp [bind, Except.bind, hd]
      | ok db =>
        cases w.env.read "pyanen_tqdm_workers" with
        | error e => simp [bind, Except.bind, hd]
        | ok v =>
          cases hv : pyInt v with
          | error e => simp [bind, Except.bind, hd, hv]
          | ok wb => simp [bind, Except.bind, hd, hv, pure, Except.pure]
  simp only [this]

/-! ### C30 -/

/-- **C30**: with memory mapping the result is the same as in memory, whatever the interleaving of the element
writes (`order` is any permutation of them), as long as there is something to map. -/
theorem C30_same (I : Integ K) (ho : OrderOK I) (kind : Kind) (w : IWorld K)
    (hsz : I.seq.length * I.shape.prod ≠ 0) (r : NDArr (Fl K)) :
    (integrate { I with lessMemory := true } kind w).1 = .ok r ↔
      (integrate { I with lessMemory := false } kind w).1 = .ok r := by
  rw [integrate_iff _ (show OrderOK { I with lessMemory := true } from ho),
    integrate_iff _ (show OrderOK { I with lessMemory := false } from ho)]
  simp only [hsz, ne_eq, not_false_eq_true, implies_true]

/-- **C30** (the excluded case): with nothing to map the memory efficient mode raises. -/
theorem C30_empty (I : Integ K) (kind : Kind) (w : IWorld K) (hsz : I.seq.length * I.shape.prod = 0) :
    ∃ e, (integrate { I with lessMemory := true } kind w).1 = .error e := by
  unfold integrate
  cases suppress I.cores w.env with
  | error e => exact ⟨e, rfl⟩
  | ok p => exact ⟨.value, by simp [hsz]⟩

theorem integBody_world (I : Integ K) (kind : Kind) (w : IWorld K) :
    (integBody I kind w).2.env = w.env ∧
      ∀ p, p ≠ I.scratch ∨ I.lessMemory = false → (integBody I kind w).2.files p = w.files p := by
  unfold integBody
  split
  · exact ⟨rfl, fun _ _ => rfl⟩
  · split
    · rename_i hl
      split
      · split
        · exact ⟨rfl, fun _ _ => rfl⟩
        · refine ⟨rfl, fun p hp => ?_⟩
          rcases hp with hp | hp
          · simp [IWorld.setFile, hp]
          · rw [hl] at hp; cases hp
      · exact ⟨rfl, fun _ _ => rfl⟩
    · exact ⟨rfl, fun _ _ => rfl⟩

/-- **C30**: after a successful memory efficient integration the scratch file is gone and every other file is as
before; without memory mapping no file is touched at all, whether it succeeds or not. -/
theorem C30_scratch_gone (I : Integ K) (kind : Kind) (w w' : IWorld K) (r : NDArr (Fl K))
    (h : integrate I kind w = (.ok r, w')) :
    (I.lessMemory = true → w'.files I.scratch = none) ∧
      (∀ p, p ≠ I.scratch ∨ I.lessMemory = false → w'.files p = w.files p) := by
  unfold integrate at h
  split at h
  · cases h
  · rename_i b env1 _
    split at h
    · cases h
    · simp only at h
      split at h
      · cases h
      · rename_i r' w3 heq
        injection h with h1 h2
        subst h2
        have hw := (integBody_world I kind (if I.lessMemory = true then
          IWorld.setFile { w with env := env1 } I.scratch
            (some (List.replicate (I.seq.length * I.shape.prod) (some 0))) else { w with env := env1 })).2
        rw [heq] at hw
        simp only at hw
        constructor
        · intro hl
          simp [hl, IWorld.setFile]
        · intro p hp
          have := hw p hp
          by_cases hl : I.lessMemory = true
          · have hp' : p ≠ I.scratch := by
              rcases hp with hp | hp
              · exact hp
              · rw [hl] at hp; cases hp
            simp only [hl, if_true] at this ⊢
            simpa [IWorld.setFile, hp'] using this
          · simp only [hl] at this ⊢
            exact this

/-! ### C32 -/

/-- **C32**: after a successful integration both progress settings parse to what they parsed to before, and no
other setting changed. -/
theorem C32_restored_partial (I : Integ K) (kind : Kind) (w w' : IWorld K) (r : NDArr (Fl K))
    (h : integrate I kind w = (.ok r, w')) :
    (∃ d d' b, w.env "pyanen_tqdm_disable" = some d ∧ w'.env "pyanen_tqdm_disable" = some d' ∧
      strtobool d = .ok b ∧ strtobool d' = .ok b) ∧
    (∃ v v' n, w.env "pyanen_tqdm_workers" = some v ∧ w'.env "pyanen_tqdm_workers" = some v' ∧
      pyInt v = .ok n ∧ pyInt v' = .ok n) ∧
    ∀ k, k ≠ "pyanen_tqdm_disable" → k ≠ "pyanen_tqdm_workers" → w'.env k = w.env k := by
  unfold integrate at h
  split at h
  · cases h
  · rename_i b env1 hsup
    obtain ⟨db, wb⟩ := b
    -- what was parsed
    have hp : ∃ d v, w.env "pyanen_tqdm_disable" = some d ∧ strtobool d = .ok db ∧
        w.env "pyanen_tqdm_workers" = some v ∧ pyInt v = .ok wb ∧
        ∀ k, k ≠ "pyanen_tqdm_disable" → k ≠ "pyanen_tqdm_workers" → env1 k = w.env k := by
      unfold suppress at hsup
      cases hd : w.env "pyanen_tqdm_disable" with
      | none => simp [bind, Except.bind, Env.read, hd] at hsup
      | some d =>
        cases hv : w.env "pyanen_tqdm_workers" with
        | none =>
          cases hsd : strtobool d <;> simp [bind, Except.bind, Env.read, hd, hv, hsd] at hsup
        | some v =>
          cases hsd : strtobool d with
          | error e => simp [bind, Except.bind, Env.read, hd, hsd] at hsup
          | ok db' =>
            cases hpv : pyInt v with
            | error e => simp [bind, Except.bind, Env.read, hd, hsd, hv, hpv] at hsup
            | ok wb' =>
              simp only [bind, Except.bind, Env.read, hd, hsd, hv, hpv, pure, Except.pure,
                Except.ok.injEq, Prod.mk.injEq] at hsup
              obtain ⟨⟨rfl, rfl⟩, rfl⟩ := hsup
              refine ⟨d, v, rfl, hsd, rfl, hpv, ?_⟩
              intro k h1 h2
              split <;> simp [Env.write, h1, h2]
    obtain ⟨d, v, hd, hsd, hv, hpv, hother⟩ := hp
    split at h
    · cases h
    · simp only at h
      split at h
      · cases h
      · rename_i r' w3 heq
        injection h with h1 h2
        subst h2
        have henv := (integBody_world I kind (if I.lessMemory = true then
          IWorld.setFile { w with env := env1 } I.scratch
            (some (List.replicate (I.seq.length * I.shape.prod) (some 0))) else { w with env := env1 })).1
        rw [heq] at henv
        simp only at henv
        have henv3 : w3.env = env1 := by
          rw [henv]; split <;> rfl
        have hw4 : (if I.lessMemory = true then w3.setFile I.scratch none else w3).env = env1 := by
          split
          · exact henv3
          · exact henv3
        simp only [hw4]
        refine ⟨⟨d, natStr db, db, hd, ?_, hsd, strtobool_natStr hsd⟩,
          ⟨v, intStr wb, wb, hv, ?_, hpv, pyInt_intStr wb⟩, ?_⟩
        · simp [resume, Env.write]
        · simp [resume, Env.write]
        · intro k h1 h2
          simp [resume, Env.write, h1, h2, hother k h1 h2]

/-- a verifier whose every task raises -/
def raisingInteg : Integ ℚ :=
  { cores := 1, lessMemory := false, seq := [0, 1], shape := [], scratch := "s",
    row := fun _ => .error .value, pick := fun _ => 0, order := id }

/-- **C32** is false: if the computation raises, the progress bar stays disabled for the rest of the process. -/
theorem C32_false : ∃ (I : Integ ℚ) (w : IWorld ℚ) (d d' : List Char),
    (∃ e, (integrate I .crps w).1 = .error e) ∧
    w.env "pyanen_tqdm_disable" = some d ∧ strtobool d = .ok 0 ∧
    (integrate I .crps w).2.env "pyanen_tqdm_disable" = some d' ∧ strtobool d' = .ok 1 := by
  refine ⟨raisingInteg, ⟨fun k => if k = "pyanen_tqdm_disable" then some "False".toList
    else if k = "pyanen_tqdm_workers" then some "1".toList else none, fun _ => none⟩,
    "False".toList, "True".toList, ⟨.value, ?_⟩, rfl, by decide, ?_, by decide⟩
  · decide +kernel
  · decide +kernel

/-! ### C28 -/

open Spec

/-- what each integration should give for row values `F i` at grid points `x i` -/
def integral (kind : Kind) (x F : ℕ → K) (n : ℕ) : K :=
  match kind with
  | .crps => trapezoid x F n
  | .mean => stieltjes (fun t => t) x F n
  | .variance => stieltjes (fun t => t * t) x F n -
      stieltjes (fun t => t) x F n * stieltjes (fun t => t) x F n

theorem halfSum_some (n : Nat) (w F : Nat → K) (a : Nat → Fl K) (ha : ∀ i < n, a i = some (F i))
    (op : Fl K → Fl K → Fl K) (op' : K → K → K) (hop : ∀ u v, op (some u) (some v) = some (op' u v)) :
    halfSum n op w a =
      some (∑ i ∈ Finset.range (n - 1), op' (F (i + 1)) (F i) / 2 * w i) := by
  unfold halfSum
  have h1 : (List.range (n - 1)).map (fun i => Fl.mul (op (a (i + 1)) (a i)) (some (w i))) =
      ((List.range (n - 1)).map fun i => op' (F (i + 1)) (F i) * w i).map some := by
    rw [List.map_map]
    apply List.map_congr_left
    intro i hi
    have := List.mem_range.1 hi
    rw [ha _ (by omega), ha _ (by omega), hop]
    rfl
  have h2 : ∀ (m : ℕ) (f : ℕ → K), ((List.range m).map f).sum = ∑ i ∈ Finset.range m, f i := by
    intro m f
    induction m with
    | zero => simp
    | succ m ih => rw [List.range_succ, Finset.sum_range_succ, ← ih]; simp
  rw [h1, fsum_some, h2, Fl.mul_some, Finset.mul_sum]
  congr 1
  apply Finset.sum_congr rfl
  intro i _
  ring

/-- the value of the three integrals at one position where every row has a number -/
theorem combineAt_some (kind : Kind) (seq : List K) (a : Nat → Fl K) (F : Nat → K)
    (ha : ∀ i < seq.length, a i = some (F i)) :
    combineAt kind seq a = some (integral kind (fun i => seq.getD i 0) F seq.length) := by
  have e : ∀ (p : K → K), ∑ i ∈ Finset.range (seq.length - 1), (F (i + 1) - F i) / 2 *
      (p (seq.getD (i + 1) 0) + p (seq.getD i 0)) =
      stieltjes p (fun i => seq.getD i 0) F seq.length := by
    intro p
    unfold stieltjes
    apply Finset.sum_congr rfl
    intro i _
    ring
  cases kind with
  | crps =>
    simp only [combineAt]
    rw [halfSum_some _ _ F a ha Fl.add (· + ·) (fun _ _ => rfl)]
    rfl
  | mean =>
    simp only [combineAt]
    rw [halfSum_some _ _ F a ha Fl.sub (· - ·) (fun _ _ => rfl), e fun t => t]
    rfl
  | variance =>
    simp only [combineAt]
    rw [halfSum_some _ _ F a ha Fl.sub (· - ·) (fun _ _ => rfl),
      halfSum_some _ _ F a ha Fl.sub (· - ·) (fun _ _ => rfl), e fun t => t, e fun t => t * t]
    rfl

/-- the values `F i` the tasks of an integration compute at position `k` -/
def RowsAt (I : Integ K) (k : List Nat) (F : Nat → K) : Prop :=
  ∀ i (hi : i < I.seq.length), ∃ a, I.row I.seq[i] = .ok a ∧ a.get k = some (F i)

/-- **C28** (what is computed): a successful integration gives at every position the trapezoidal rule over the
Brier rows (CRPS), and the discrete moments of the CDF rows (mean, variance). -/
theorem C28_value (I : Integ K) (ho : OrderOK I) (kind : Kind) (w w' : IWorld K) (r : NDArr (Fl K))
    (h : integrate I kind w = (.ok r, w')) (k : List Nat) (hk : InB I.shape k) (F : Nat → K)
    (hF : RowsAt I k F) :
    r.shape = I.shape ∧ r.get k = some (integral kind (fun i => I.seq.getD i 0) F I.seq.length) := by
  have h1 := (integrate_iff I ho kind w r).1 (by rw [h])
  obtain ⟨-, -, rows, hm, hne, hs, rfl⟩ := h1
  refine ⟨rfl, ?_⟩
  rw [get_ofFn _ hk]
  apply combineAt_some
  intro i hi
  obtain ⟨a, ha, hak⟩ := hF i hi
  have hlen := mapE_length hm
  have hf := mapE_ok.1 hm
  have := List.Forall₂.get hf hi (by omega)
  simp only [List.get_eq_getElem] at this
  rw [ha] at this
  rw [List.getD_eq_getElem?_getD, List.getElem?_eq_getElem (by omega)]
  simp only [Option.getD_some]
  injection this with this
  rw [← this, hak]

/-- **C28**: on a non-decreasing grid the integrated CRPS is never negative, and at most the length of the range
(the rows are squares of differences between a number in `[0,1]` and 0 or 1). -/
theorem C28_crps (I : Integ K) (ho : OrderOK I) (w w' : IWorld K) (r : NDArr (Fl K))
    (h : integrate I .crps w = (.ok r, w')) (k : List Nat) (hk : InB I.shape k)
    (cdf : K → Except Err (NDArr (Fl K))) (o : NDArr (Fl K)) (hrow : I.row = brierRow cdf o)
    (P : Nat → K) (hP : ∀ i (hi : i < I.seq.length), ∃ a, cdf I.seq[i] = .ok a ∧ a.get k = some (P i))
    (ho' : ∀ i (hi : i < I.seq.length), ∀ a, cdf I.seq[i] = .ok a → a.shape = I.shape) (hos : o.shape = I.shape)
    (hseq : I.seq.Pairwise (· ≤ ·)) :
    ∃ v, r.get k = some v ∧ 0 ≤ v ∧
      ((∀ i, 0 ≤ P i ∧ P i ≤ 1) → v ≤ I.seq.getD (I.seq.length - 1) 0 - I.seq.getD 0 0) := by
  -- the rows
  let F : Nat → K := fun i => (P i - if Fl.lt (o.get k) (some (I.seq.getD i 0)) then 1 else 0) *
    (P i - if Fl.lt (o.get k) (some (I.seq.getD i 0)) then 1 else 0)
  have hF : RowsAt I k F := by
    intro i hi
    obtain ⟨a, ha, hak⟩ := hP i hi
    have hsh := ho' i hi a ha
    have hgd : I.seq.getD i 0 = I.seq[i] := by
      rw [List.getD_eq_getElem?_getD, List.getElem?_eq_getElem hi]; rfl
    rw [hrow]
    unfold brierRow
    simp only [ha, bind, Except.bind, binarizeObs, cmpThr, brierArr]
    rw [zipWith_ok _ _ _ (by rw [hsh, ← hos]; rfl)]
    refine ⟨_, rfl, ?_⟩
    rw [get_ofFn _ (by rw [hsh]; exact hk), hak, get_map _ _ (by rw [hos]; exact hk)]
    simp only [F, hgd]
    rfl
  obtain ⟨-, hv⟩ := C28_value I ho .crps w w' r h k hk F hF
  simp only [integral] at hv
  have hmono : ∀ i ∈ Finset.range (I.seq.length - 1), 0 ≤ I.seq.getD (i + 1) 0 - I.seq.getD i 0 := by
    intro i hi
    have := Finset.mem_range.1 hi
    have := getD_mono hseq (Nat.le_succ i) (by omega)
    linarith [this]
  refine ⟨_, hv, ?_, ?_⟩
  · apply Finset.sum_nonneg
    intro i hi
    have h1 : 0 ≤ F i := mul_self_nonneg _
    have h2 : 0 ≤ F (i + 1) := mul_self_nonneg _
    exact mul_nonneg (by linarith) (hmono i hi)
  · intro hP01
    have hF1 : ∀ i, F i ≤ 1 := by
      intro i
      obtain ⟨p0, p1⟩ := hP01 i
      simp only [F]
      split <;> nlinarith
    have : trapezoid (fun i => I.seq.getD i 0) F I.seq.length ≤
        ∑ i ∈ Finset.range (I.seq.length - 1), (I.seq.getD (i + 1) 0 - I.seq.getD i 0) := by
      apply Finset.sum_le_sum
      intro i hi
      have h1 := hF1 i
      have h2 := hF1 (i + 1)
      have h3 := hmono i hi
      nlinarith
    rw [Finset.sum_range_sub (fun i => I.seq.getD i 0)] at this
    exact this

theorem stieltjes_mean_range (x F : ℕ → K) (n : ℕ) (hx : ∀ i, i + 1 < n → x i ≤ x (i + 1))
    (hF : ∀ i, i + 1 < n → F i ≤ F (i + 1)) (htot : F (n - 1) - F 0 = 1) :
    x 0 ≤ stieltjes (fun t => t) x F n ∧ stieltjes (fun t => t) x F n ≤ x (n - 1) := by
  have hlo : ∀ i, i < n → x 0 ≤ x i := by
    intro i
    induction i with
    | zero => intro _; exact le_rfl
    | succ i ih => intro hi; exact le_trans (ih (by omega)) (hx i hi)
  have hhi : ∀ j, ∀ i, i + j = n - 1 → x i ≤ x (n - 1) := by
    intro j
    induction j with
    | zero => intro i hi; simp at hi; rw [hi]
    | succ j ih => intro i hi; exact le_trans (hx i (by omega)) (ih (i + 1) (by omega))
  have hsum : ∑ i ∈ Finset.range (n - 1), (F (i + 1) - F i) = 1 := by
    rw [Finset.sum_range_sub F]; exact htot
  constructor
  · have : ∑ i ∈ Finset.range (n - 1), x 0 * (F (i + 1) - F i) ≤ stieltjes (fun t => t) x F n := by
      apply Finset.sum_le_sum
      intro i hi
      have hi' := Finset.mem_range.1 hi
      have h1 := hlo i (by omega)
      have h2 := hlo (i + 1) (by omega)
      have h3 := hF i (by omega)
      apply mul_le_mul_of_nonneg_right _ (by linarith)
      simp only; linarith
    rw [← Finset.mul_sum, hsum, mul_one] at this
    exact this
  · have : stieltjes (fun t => t) x F n ≤ ∑ i ∈ Finset.range (n - 1), x (n - 1) * (F (i + 1) - F i) := by
      apply Finset.sum_le_sum
      intro i hi
      have hi' := Finset.mem_range.1 hi
      have h1 := hhi (n - 1 - i) i (by omega)
      have h2 := hhi (n - 1 - (i + 1)) (i + 1) (by omega)
      have h3 := hF i (by omega)
      apply mul_le_mul_of_nonneg_right _ (by linarith)
      simp only; linarith
    rw [← Finset.mul_sum, hsum, mul_one] at this
    exact this

theorem stieltjes_variance_nonneg (x F : ℕ → K) (n : ℕ) (hF : ∀ i, i + 1 < n → F i ≤ F (i + 1))
    (htot : F (n - 1) - F 0 ≤ 1) :
    0 ≤ stieltjes (fun t => t * t) x F n - stieltjes (fun t => t) x F n * stieltjes (fun t => t) x F n := by
  set M := stieltjes (fun t => t) x F n with hM
  -- Cauchy-Schwarz: with weights `dF` of total mass at most one
  have hsum : ∑ i ∈ Finset.range (n - 1), (F (i + 1) - F i) ≤ 1 := by
    rw [Finset.sum_range_sub F]; exact htot
  have hterm : ∀ i ∈ Finset.range (n - 1),
      (2 * M * ((x (i + 1) + x i) / 2) - M * M) * (F (i + 1) - F i) ≤
      ((x (i + 1) * x (i + 1) + x i * x i) / 2) * (F (i + 1) - F i) := by
    intro i hi
    have hi' := Finset.mem_range.1 hi
    have h3 := hF i (by omega)
    apply mul_le_mul_of_nonneg_right _ (by linarith)
    nlinarith [mul_self_nonneg (x (i + 1) - M), mul_self_nonneg (x i - M)]
  have h := Finset.sum_le_sum hterm
  have hl : ∑ i ∈ Finset.range (n - 1), (2 * M * ((x (i + 1) + x i) / 2) - M * M) * (F (i + 1) - F i) =
      2 * M * M - M * M * ∑ i ∈ Finset.range (n - 1), (F (i + 1) - F i) := by
    have hc : ∀ c : K, ∑ i ∈ Finset.range (n - 1), (2 * c * ((x (i + 1) + x i) / 2) - c * c) *
        (F (i + 1) - F i) = 2 * c * stieltjes (fun t => t) x F n -
        c * c * ∑ i ∈ Finset.range (n - 1), (F (i + 1) - F i) := by
      intro c
      unfold stieltjes
      rw [Finset.mul_sum, Finset.mul_sum, ← Finset.sum_sub_distrib]
      apply Finset.sum_congr rfl
      intro i _
      ring
    exact hc M
  rw [hl] at h
  have hr : ∑ i ∈ Finset.range (n - 1), (x (i + 1) * x (i + 1) + x i * x i) / 2 * (F (i + 1) - F i) =
      stieltjes (fun t => t * t) x F n := rfl
  rw [hr] at h
  have hMM : 0 ≤ M * M := mul_self_nonneg M
  nlinarith

/-- **C28**: for a non-decreasing CDF whose total increase over the grid is one, the integrated mean lies within
the integration range. -/
theorem C28_mean_in_range (I : Integ K) (ho : OrderOK I) (w w' : IWorld K) (r : NDArr (Fl K))
    (h : integrate I .mean w = (.ok r, w')) (k : List Nat) (hk : InB I.shape k) (F : Nat → K)
    (hF : RowsAt I k F) (hseq : I.seq.Pairwise (· ≤ ·)) (hmono : ∀ i, i + 1 < I.seq.length → F i ≤ F (i + 1))
    (htot : F (I.seq.length - 1) - F 0 = 1) :
    ∃ v, r.get k = some v ∧ I.seq.getD 0 0 ≤ v ∧ v ≤ I.seq.getD (I.seq.length - 1) 0 :=
  ⟨_, (C28_value I ho .mean w w' r h k hk F hF).2,
    stieltjes_mean_range _ F _ (fun i hi => getD_mono hseq (Nat.le_succ i) hi) hmono htot⟩

/-- **C28**: for a non-decreasing CDF whose total increase over the grid is at most one, the integrated variance is
non-negative. -/
theorem C28_variance_nonneg (I : Integ K) (ho : OrderOK I) (w w' : IWorld K) (r : NDArr (Fl K))
    (h : integrate I .variance w = (.ok r, w')) (k : List Nat) (hk : InB I.shape k) (F : Nat → K)
    (hF : RowsAt I k F) (hmono : ∀ i, i + 1 < I.seq.length → F i ≤ F (i + 1))
    (htot : F (I.seq.length - 1) - F 0 ≤ 1) :
    ∃ v, r.get k = some v ∧ 0 ≤ v :=
  ⟨_, (C28_value I ho .variance w w' r h k hk F hF).2, stieltjes_variance_nonneg _ F _ hmono htot⟩

/-! ### C31 -/

theorem foldl_min_le (l : List K) (a : K) :
    ∃ m, (l.map some).foldl Fl.min (some a) = some m ∧ m ≤ a ∧ (∀ x ∈ l, m ≤ x) ∧ (m = a ∨ m ∈ l) := by
  induction l generalizing a with
  | nil => exact ⟨a, rfl, le_rfl, by simp, Or.inl rfl⟩
  | cons b l ih =>
    obtain ⟨m, h1, h2, h3, h4⟩ := ih (Min.min a b)
    refine ⟨m, h1, le_trans h2 (min_le_left _ _), ?_, ?_⟩
    · intro x hx
      rcases List.mem_cons.1 hx with rfl | hx
      · exact le_trans h2 (min_le_right _ _)
      · exact h3 x hx
    · rcases h4 with h4 | h4
      · rcases min_choice a b with h | h
        · left; rw [h4, h]
        · right; rw [h4, h]; simp
      · right; simp [h4]

theorem foldl_max_ge (l : List K) (a : K) :
    ∃ m, (l.map some).foldl Fl.max (some a) = some m ∧ a ≤ m ∧ (∀ x ∈ l, x ≤ m) ∧ (m = a ∨ m ∈ l) := by
  induction l generalizing a with
  | nil => exact ⟨a, rfl, le_rfl, by simp, Or.inl rfl⟩
  | cons b l ih =>
    obtain ⟨m, h1, h2, h3, h4⟩ := ih (Max.max a b)
    refine ⟨m, h1, le_trans (le_max_left _ _) h2, ?_, ?_⟩
    · intro x hx
      rcases List.mem_cons.1 hx with rfl | hx
      · exact le_trans (le_max_right _ _) h2
      · exact h3 x hx
    · rcases h4 with h4 | h4
      · rcases max_choice a b with h | h
        · left; rw [h4, h]
        · right; rw [h4, h]; simp
      · right; simp [h4]

/-- **C31**, as far as it is true: with complete observations that are not all equal the default range starts
strictly below and ends strictly above every observation.  (Missing: constant observations, see `C31_false`.) -/
theorem C31_covers_partial (m : Int) (hm : 0 < m) (o : NDArr (Fl K)) (vals : List K)
    (hv : o.data = vals.map some) (hd : ∃ x ∈ vals, ∃ y ∈ vals, x ≠ y) :
    ∃ lo hi, integrationRange none m o = .ok (some lo, some hi) ∧ ∀ x ∈ vals, lo < x ∧ x < hi := by
  obtain ⟨x0, hx0, y0, hy0, hne⟩ := hd
  cases vals with
  | nil => simp at hx0
  | cons a l =>
    obtain ⟨mn, h1, h2, h3, h4⟩ := foldl_min_le l a
    obtain ⟨mx, g1, g2, g3, g4⟩ := foldl_max_ge l a
    have hlo : ∀ x ∈ a :: l, mn ≤ x := by
      intro x hx
      rcases List.mem_cons.1 hx with rfl | hx
      · exact h2
      · exact h3 x hx
    have hhi : ∀ x ∈ a :: l, x ≤ mx := by
      intro x hx
      rcases List.mem_cons.1 hx with rfl | hx
      · exact g2
      · exact g3 x hx
    have hrange : mn < mx := by
      rcases lt_or_gt_of_ne hne with h | h
      · exact lt_of_le_of_lt (hlo _ hx0) (lt_of_lt_of_le h (hhi _ hy0))
      · exact lt_of_le_of_lt (hlo _ hy0) (lt_of_lt_of_le h (hhi _ hx0))
    have hmK : (0 : K) < (m : K) := by exact_mod_cast hm
    have hpos : 0 < (m : K) * (mx - mn) := mul_pos hmK (by linarith)
    refine ⟨mn - m * (mx - mn), mx + m * (mx - mn), ?_, ?_⟩
    · unfold integrationRange
      simp only
      rw [if_pos hm, hv]
      simp only [List.map_cons, npMin, npMax, h1, g1]
      rfl
    · intro x hx
      have := hlo x hx
      have := hhi x hx
      constructor <;> linarith

/-- **C31** is false: with constant observations (for instance a single one) the default range is a single point, and
then the integrated CRPS is zero at every position whatever the forecast is. -/
theorem C31_false (m : Int) (hm : 0 < m) (c : K) (s : List Nat) (hs : s.prod ≠ 0) :
    integrationRange none m (full s (some c)) = .ok (some c, some c) ∧
    ∀ (I : Integ K) (_ : OrderOK I) (n : Nat) (_ : I.seq = linspace c c n) (w w' : IWorld K)
      (r : NDArr (Fl K)) (_ : integrate I .crps w = (.ok r, w')) (k : List Nat) (_ : InB I.shape k)
      (F : Nat → K) (_ : RowsAt I k F), r.get k = some 0 := by
  constructor
  · obtain ⟨t, ht⟩ : ∃ t, s.prod = t + 1 := ⟨s.prod - 1, by omega⟩
    have hd : (full s (some c)).data = (c :: List.replicate t c).map some := by
      simp [full, ht, List.replicate_succ]
    obtain ⟨mn, h1, h2, h3, h4⟩ := foldl_min_le (List.replicate t c) c
    obtain ⟨mx, g1, g2, g3, g4⟩ := foldl_max_ge (List.replicate t c) c
    have e1 : mn = c := by
      rcases h4 with h | h
      · exact h
      · exact (List.mem_replicate.1 h).2
    have e2 : mx = c := by
      rcases g4 with h | h
      · exact h
      · exact (List.mem_replicate.1 h).2
    subst e1
    unfold integrationRange
    simp only
    rw [if_pos hm, hd]
    simp only [List.map_cons, npMin, npMax, h1, g1, e2]
    simp [bind, Except.bind, pure, Except.pure]
  · intro I ho n hI w w' r h k hk F hF
    obtain ⟨-, hv⟩ := C28_value I ho .crps w w' r h k hk F hF
    rw [hv]
    congr 1
    simp only [integral]
    apply Finset.sum_eq_zero
    intro i hi
    have hi' := Finset.mem_range.1 hi
    have hall : ∀ j < I.seq.length, I.seq.getD j 0 = c := by
      intro j hj
      rw [hI] at hj ⊢
      rw [List.getD_eq_getElem?_getD, List.getElem?_eq_getElem hj]
      simp only [Option.getD_some]
      have hmem := List.getElem_mem hj
      generalize (linspace c c n)[j] = y at hmem
      unfold linspace at hmem
      split at hmem
      · exact (List.mem_replicate.1 hmem).2
      · obtain ⟨q, _, hq⟩ := List.mem_map.1 hmem
        rw [← hq]
        simp
    simp only
    rw [hall _ (by omega), hall _ (by omega)]
    ring

theorem linspace_mono {lo hi : K} (h : lo ≤ hi) (n : Nat) : (linspace lo hi n).Pairwise (· ≤ ·) := by
  unfold linspace
  split
  · exact List.pairwise_replicate.2 (Or.inr le_rfl)
  · rename_i hn
    have hn1 : (0 : K) < ((n - 1 : Nat) : K) := by exact_mod_cast (by omega : 0 < n - 1)
    have hst : 0 ≤ (hi - lo) / ((n - 1 : Nat) : K) := div_nonneg (by linarith) hn1.le
    rw [List.pairwise_map]
    refine List.Pairwise.imp_of_mem ?_ (List.pairwise_lt_range)
    intro a b ha hb hab
    have hb' := List.mem_range.1 hb
    have haK : (a : K) ≤ (b : K) := by exact_mod_cast hab.le
    rw [if_neg (by omega)]
    split
    · have : (a : K) ≤ ((n - 1 : Nat) : K) := by exact_mod_cast (by omega : a ≤ n - 1)
      have h2 : (a : K) * ((hi - lo) / ((n - 1 : Nat) : K)) ≤
          ((n - 1 : Nat) : K) * ((hi - lo) / ((n - 1 : Nat) : K)) := mul_le_mul_of_nonneg_right this hst
      rw [mul_div_cancel₀ _ hn1.ne'] at h2
      linarith
    · have := mul_le_mul_of_nonneg_right haK hst
      linarith

/-- **C31/C28**: the integration grid runs in order from the lower to the upper bound. -/
theorem C31_grid {lo hi : K} (h : lo ≤ hi) (n : Nat) (hn : 2 ≤ n) :
    (linspace lo hi n).Pairwise (· ≤ ·) ∧ (linspace lo hi n).length = n ∧
      (linspace lo hi n).getD 0 0 = lo ∧ (linspace lo hi n).getD (n - 1) 0 = hi := by
  refine ⟨linspace_mono h n, ?_, ?_, ?_⟩
  · simp only [linspace]; split <;> simp
  · unfold linspace
    rw [if_neg (by omega), List.getD_eq_getElem?_getD]
    simp [show 0 < n by omega, show ¬ (0 = n - 1) by omega]
  · unfold linspace
    rw [if_neg (by omega), List.getD_eq_getElem?_getD]
    simp [show n - 1 < n by omega]

/-! ### examples -/

/-- one observation 1, a CDF that jumps from 0 to 1 at 2 -/
def exInteg (cores : Int) (less : Bool) : Integ ℚ :=
  { cores := cores, lessMemory := less, seq := [0, 1, 2, 3], shape := [1], scratch := "s",
    row := brierRow (fun x => .ok ⟨[1], [some (if x < 2 then 0 else 1)], rfl⟩) ⟨[1], [some 1], rfl⟩,
    pick := fun n => n + 1, order := List.reverse }

def exWorld : IWorld ℚ := ⟨fun k => if k = "pyanen_tqdm_disable" then some "False".toList
    else if k = "pyanen_tqdm_workers" then some " 4".toList else none, fun _ => none⟩

example : OrderOK (exInteg 3 true) := fun l => List.reverse_perm l

example : (integrate (exInteg 1 false) .crps exWorld).1 = .ok ⟨[1], [some 0], rfl⟩ := by decide +kernel

example : (integrate (exInteg 3 true) .crps exWorld).1 = .ok ⟨[1], [some 0], rfl⟩ := by decide +kernel

/-- rows that differ from each other -/
def exInteg2 (cores : Int) (less : Bool) : Integ ℚ :=
  { cores := cores, lessMemory := less, seq := [0, 1, 3], shape := [2], scratch := "s",
    row := fun x => .ok ⟨[2], [some (x / 3), some (x * x / 9)], rfl⟩,
    pick := fun n => n + 1, order := List.reverse }

example : (integrate (exInteg2 1 false) .mean exWorld).1 = .ok ⟨[2], [some (3/2), some (11/6)], rfl⟩ := by
  decide +kernel

example : (integrate (exInteg2 2 true) .mean exWorld).1 = .ok ⟨[2], [some (3/2), some (11/6)], rfl⟩ := by
  decide +kernel

example : RowsAt (exInteg2 1 false) [0] (fun i => [0, 1/3, 1].getD i 0) := by
  intro i hi
  simp only [exInteg2, List.length_cons, List.length_nil] at hi
  refine ⟨_, rfl, ?_⟩
  interval_cases i <;> decide +kernel +revert

end Props
