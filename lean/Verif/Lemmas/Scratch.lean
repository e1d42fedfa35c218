import Verif.Lemmas.Integration
import Verif.Model.Scratch

/-! # Concurrent integrations -/

set_option linter.unusedSectionVars false

namespace Model
open Np NDArr

variable {K : Type} [Field K] [LinearOrder K] [IsStrictOrderedRing K] {R : Type}

theorem solo_add (m n : Nat) (c : PathState K × Running K R) :
    IProc.solo (m + n) c = IProc.solo n (IProc.solo m c) := by
  induction m generalizing c with
  | zero => simp [IProc.solo]
  | succ m ih => rw [Nat.add_right_comm]; simp only [IProc.solo]; exact ih _

theorem solo_done (n : Nat) (s : PathState K) (r : Except Err R) (h : Option Nat) :
    IProc.solo n (s, ⟨.done r, h⟩) = (s, ⟨.done r, h⟩) := by
  induction n with
  | zero => rfl
  | succ n ih => simp only [IProc.solo, IProc.step]; exact ih

/-- one state is reached from the other by a process alone -/
def Reach (c d : PathState K × Running K R) : Prop := ∃ n, IProc.solo n c = d

theorem Reach.trans {a b c : PathState K × Running K R} (h1 : Reach a b) (h2 : Reach b c) : Reach a c := by
  obtain ⟨m, hm⟩ := h1
  obtain ⟨n, hn⟩ := h2
  exact ⟨m + n, by rw [solo_add, hm, hn]⟩

theorem Reach.refl (a : PathState K × Running K R) : Reach a a := ⟨0, rfl⟩

theorem Reach.one (c : PathState K × Running K R) : Reach c (IProc.step c.1 c.2) := ⟨1, rfl⟩

/-- what a process sees and does is not influenced by processes with other paths -/
theorem run_isolated {ι : Type} [DecidableEq ι] (path : ι → String) (p : ι)
    (hp : ∀ q, q ≠ p → path q ≠ path p) (sched : List ι) (σ : Sys ι K R) :
    ((Sys.run path sched σ).files (path p), (Sys.run path sched σ).procs p) =
      IProc.solo (sched.count p) (σ.files (path p), σ.procs p) := by
  induction sched generalizing σ with
  | nil => rfl
  | cons q qs ih =>
    simp only [Sys.run]
    rw [ih]
    by_cases hq : q = p
    · subst hq
      rw [List.count_cons_self]
      simp only [IProc.solo]
      congr 1
      simp [Sys.step]
    · rw [List.count_cons_of_ne (by simpa using hq)]
      have h1 : (Sys.step path q σ).files (path p) = σ.files (path p) := by
        simp only [Sys.step]; rw [if_neg (fun h => hp q hq h.symm)]
      have h2 : (Sys.step path q σ).procs p = σ.procs p := by
        simp only [Sys.step]; rw [if_neg (fun h => hq h.symm)]
      rw [h1, h2]

theorem readMany_reach (s : PathState K) (g : Nat) (start n : Nat) (k : List (Fl K) → IProc K R)
    (h : start + n ≤ (s.data g).length) :
    Reach (s, ⟨readMany start n k, some g⟩) (s, ⟨k (((s.data g).drop start).take n), some g⟩) := by
  induction n generalizing start k with
  | zero => simpa [readMany] using Reach.refl _
  | succ n ih =>
    have hlt : start < (s.data g).length := by omega
    refine Reach.trans (Reach.one _) ?_
    simp only [readMany, IProc.step, List.getElem?_eq_getElem hlt]
    refine Reach.trans (ih (start + 1) _ (by omega)) ?_
    rw [List.drop_eq_getElem_cons hlt, List.take_succ_cons]
    exact Reach.refl _

theorem rowP_reach (s : PathState K) (g : Nat) (sh : List Nat) (i : Nat) (k : NDArr (Fl K) → IProc K R)
    {r : NDArr (Fl K)} (h : fileRow sh (s.data g) i = .ok r) (hb : i * sh.prod + sh.prod ≤ (s.data g).length) :
    Reach (s, ⟨rowP sh i k, some g⟩) (s, ⟨k r, some g⟩) := by
  refine Reach.trans (readMany_reach s g _ _ _ hb) ?_
  unfold fileRow at h
  simp only at h
  split at h
  · rename_i hl
    injection h with h
    rw [dif_pos hl, ← h]
    exact Reach.refl _
  · cases h

theorem foldl_error {α β : Type} (f : Except Err β → α → Except Err β) (hf : ∀ e a, f (.error e) a = .error e)
    (l : List α) (e : Err) : l.foldl f (.error e) = .error e := by
  induction l with
  | nil => rfl
  | cons a l ih => rw [List.foldl_cons, hf, ih]

theorem sumMulP_reach (s : PathState K) (g : Nat) (sh : List Nat) (start : Nat) (mul : List (K × Nat))
    (out : NDArr (Fl K)) (k : NDArr (Fl K) → IProc K R) {r : NDArr (Fl K)}
    (h : mul.foldl (fun acc p => do
      let out ← acc
      let r ← fileRow sh (s.data g) (start + p.2)
      zipWith (fun a b => Fl.add a (Fl.mul b (some p.1))) out r) (.ok out) = .ok r)
    (hb : ∀ p ∈ mul, (start + p.2) * sh.prod + sh.prod ≤ (s.data g).length) :
    Reach (s, ⟨sumMulP sh start mul out k, some g⟩) (s, ⟨k r, some g⟩) := by
  induction mul generalizing out with
  | nil =>
    simp only [List.foldl_nil, Except.ok.injEq] at h
    subst h
    exact Reach.refl _
  | cons p ps ih =>
    rw [List.foldl_cons] at h
    cases hr : fileRow sh (s.data g) (start + p.2) with
    | error e =>
      rw [hr] at h
      simp only [bind, Except.bind] at h
      rw [foldl_error _ (by intro e a; rfl)] at h
      cases h
    | ok row =>
      rw [hr] at h
      simp only [bind, Except.bind] at h
      refine Reach.trans (rowP_reach s g sh _ _ hr (hb p (by simp))) ?_
      cases hz : zipWith (fun a b => Fl.add a (Fl.mul b (some p.1))) out row with
      | error e =>
        rw [hz] at h
        rw [foldl_error _ (by intro e a; rfl)] at h
        cases h
      | ok out' =>
        rw [hz] at h
        exact ih out' h fun q hq => hb q (by simp [hq])

theorem pairP_reach (s : PathState K) (g : Nat) (sh : List Nat) (op : Fl K → Fl K → Fl K) (mul : List K)
    (k : NDArr (Fl K) → IProc K R) {r : NDArr (Fl K)} (h : memmapPair sh (s.data g) op mul = .ok r)
    (hb : (mul.length + 1) * sh.prod ≤ (s.data g).length) :
    Reach (s, ⟨pairP sh op mul k, some g⟩) (s, ⟨k r, some g⟩) := by
  unfold memmapPair at h
  cases ha : memmapSumMul sh (s.data g) 1 mul with
  | error e => rw [ha] at h; cases h
  | ok a =>
    cases hb' : memmapSumMul sh (s.data g) 0 mul with
    | error e => rw [ha, hb'] at h; cases h
    | ok b =>
      rw [ha, hb'] at h
      simp only [bind, Except.bind] at h
      have hidx : ∀ p ∈ mul.zipIdx, p.2 < mul.length := by
        intro p hp
        obtain ⟨x, i⟩ := p
        have := List.snd_lt_of_mem_zipIdx hp
        simpa using this
      have hbd : ∀ t ≤ 1, ∀ p ∈ mul.zipIdx, (t + p.2) * sh.prod + sh.prod ≤ (s.data g).length := by
        intro t ht p hp
        have := hidx p hp
        calc (t + p.2) * sh.prod + sh.prod = (t + p.2 + 1) * sh.prod := by ring
          _ ≤ (mul.length + 1) * sh.prod := Nat.mul_le_mul_right _ (by omega)
          _ ≤ _ := hb
      refine Reach.trans (sumMulP_reach s g sh 1 _ _ _ ha (hbd 1 le_rfl)) ?_
      refine Reach.trans (sumMulP_reach s g sh 0 _ _ _ hb' (hbd 0 (by omega))) ?_
      rw [h]
      exact Reach.refl _

theorem combineP_reach (s : PathState K) (g : Nat) (kind : Kind) (seq : List K) (sh : List Nat)
    (k : NDArr (Fl K) → IProc K R) {r : NDArr (Fl K)} (h : combineFile kind seq sh (s.data g) = .ok r)
    (hne : seq ≠ []) (hb : seq.length * sh.prod ≤ (s.data g).length) :
    Reach (s, ⟨combineP kind seq sh k, some g⟩) (s, ⟨k r, some g⟩) := by
  have hl : seq.length - 1 + 1 = seq.length := by
    have := List.length_pos_iff.2 hne
    omega
  have hb' : ∀ w : Nat → K, (((List.range (seq.length - 1)).map w).length + 1) * sh.prod ≤ (s.data g).length := by
    intro w; rw [List.length_map, List.length_range, hl]; exact hb
  cases kind with
  | crps => exact pairP_reach s g sh _ _ _ h (hb' _)
  | mean => exact pairP_reach s g sh _ _ _ h (hb' _)
  | variance =>
    unfold combineFile at h
    simp only [bind, Except.bind] at h
    split at h
    · cases h
    · rename_i m hm
      split at h
      · cases h
      · rename_i q hq
        refine Reach.trans (pairP_reach s g sh _ _ _ hm (hb' _)) ?_
        refine Reach.trans (pairP_reach s g sh _ _ _ hq (hb' _)) ?_
        rw [h]
        exact Reach.refl _

theorem putAll_reach (s : PathState K) (g : Nat) (hg : s.linked = some g) (size : Nat) (ev : List (Nat × Fl K))
    (k : IProc K R) (h : Option Nat) (hl : (s.data g).length = size) :
    ∃ s' : PathState K, s'.linked = some g ∧ s'.data g = applyWrites (s.data g) ev ∧
      Reach (s, ⟨putAll size ev k, h⟩) (s', ⟨k, h⟩) := by
  induction ev generalizing s with
  | nil => exact ⟨s, hg, rfl, Reach.refl _⟩
  | cons e es ih =>
    have hd : s.data g ++ List.replicate (size - (s.data g).length) (some 0) = s.data g := by
      rw [hl]; simp
    obtain ⟨s', h1, h2, h3⟩ := ih (s.write g ((s.data g).set e.1 e.2)) hg
      (by simp [PathState.write, hl])
    refine ⟨s', h1, ?_, Reach.trans (Reach.one _) ?_⟩
    · rw [h2]; simp [PathState.write, applyWrites]
    · simp only [putAll, IProc.step, hg, hd]
      exact h3

/-- after creating and mapping the file -/
theorem create_reach (s : PathState K) (h : Option Nat) (size : Nat) :
    ∃ (s1 : PathState K) (g : Nat), s1.linked = some g ∧ s1.data g = List.replicate size (some 0) ∧
      ∀ k : IProc K R, Reach (s, ⟨.create size (.openR size k), h⟩) (s1, ⟨k, some g⟩) := by
  have hopen : ∀ (s1 : PathState K) (g : Nat), s1.linked = some g → s1.data g = List.replicate size (some 0) →
      ∀ k : IProc K R, Reach (s1, ⟨.openR size k, h⟩) (s1, ⟨k, some g⟩) := by
    intro s1 g hg hd k
    refine Reach.trans (Reach.one _) ?_
    simp only [IProc.step, hg, hd, List.length_replicate, le_refl, if_true]
    exact Reach.refl _
  cases hl : s.linked with
  | none =>
    refine ⟨{ linked := some s.next, data := fun g' => if g' = s.next then
      List.replicate size (some 0) else s.data g', next := s.next + 1 }, s.next, rfl, if_pos rfl, fun k => ?_⟩
    refine Reach.trans (Reach.one _) ?_
    simp only [IProc.step, hl]
    exact hopen _ _ rfl (if_pos rfl) k
  | some g =>
    refine ⟨s.write g (List.replicate size (some 0)), g, hl, if_pos rfl, fun k => ?_⟩
    refine Reach.trans (Reach.one _) ?_
    simp only [IProc.step, hl]
    exact hopen (s.write g (List.replicate size (some 0))) g hl (if_pos rfl) k

/-- the program of a successful integration, run alone, ends with the result of the integration and without the file -/
theorem integProc_reach (I : Integ K) (kind : Kind) (hsz : I.seq.length * I.shape.prod ≠ 0)
    {rows : List (NDArr (Fl K))} (hrows : gridRows I.cores I.pick I.row I.seq = .ok rows)
    (hsh : ∀ r ∈ rows, r.shape = I.shape) {r : NDArr (Fl K)}
    (hr : combineFile kind I.seq I.shape (applyWrites (List.replicate (I.seq.length * I.shape.prod) (some 0))
      (I.order (rows.zipIdx.flatMap fun p => rowWrites I.shape.prod p.2 p.1))) = .ok r)
    (s : PathState K) (h : Option Nat) :
    ∃ (s' : PathState K) (h' : Option Nat), s'.linked = none ∧
      Reach (s, ⟨integProc I kind, h⟩) (s', ⟨.done (.ok r), h'⟩) := by
  have hne : I.seq ≠ [] := by
    intro h0; rw [h0] at hsz; simp at hsz
  obtain ⟨s1, g, hg, hd, hreach⟩ := create_reach s h (I.seq.length * I.shape.prod) (R := NDArr (Fl K))
  have hlen : (s1.data g).length = I.seq.length * I.shape.prod := by rw [hd]; simp
  obtain ⟨s2, hg2, hd2, hput⟩ := putAll_reach s1 g hg (I.seq.length * I.shape.prod)
    (I.order (rows.zipIdx.flatMap fun p => rowWrites I.shape.prod p.2 p.1))
    (combineP kind I.seq I.shape fun r => .remove (.done (.ok r))) (some g) hlen
  refine ⟨{ s2 with linked := none }, some g, rfl, ?_⟩
  unfold integProc
  simp only
  rw [if_neg hsz, hrows]
  simp only
  rw [if_pos hsh]
  refine Reach.trans (hreach _) ?_
  refine Reach.trans hput ?_
  refine Reach.trans (combineP_reach s2 g kind I.seq I.shape _ (by rw [hd2, hd]; exact hr) hne ?_) ?_
  · rw [hd2, applyWrites, foldl_set_length, hlen]
  · refine Reach.trans (Reach.one _) ?_
    simp only [IProc.step, hg2]
    exact Reach.refl _

end Model
