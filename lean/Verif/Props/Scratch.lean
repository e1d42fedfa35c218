import Verif.Props.Integration
import Verif.Lemmas.Scratch

/-!
# Several memory efficient integrations at the same time: C66
-/

set_option linter.unusedSectionVars false

namespace Props
open Np NDArr Model

variable {K : Type} [Field K] [LinearOrder K] [IsStrictOrderedRing K]

/-- the file operations, run alone from any state of the path, end with the result of the integration; after a success
the path is free, after an exception in the body the file stays -/
theorem integProc_solo (I : Integ K) (hl : I.lessMemory = true) (ho : OrderOK I) (kind : Kind) (w : IWorld K)
    (hw : ∃ p, suppress I.cores w.env = .ok p) (s : PathState K) (h : Option Nat) :
    ∃ (s' : PathState K) (h' : Option Nat),
      Reach (s, ⟨integProc I kind, h⟩) (s', ⟨.done (integrate I kind w).1, h'⟩) ∧
      (∀ r, (integrate I kind w).1 = .ok r → s'.linked = none) ∧
      (∀ e, (integrate I kind w).1 = .error e → I.seq.length * I.shape.prod ≠ 0 → s'.linked ≠ none) := by
  obtain ⟨⟨b, env1⟩, hw⟩ := hw
  by_cases hsz : I.seq.length * I.shape.prod = 0
  · have hi : (integrate I kind w).1 = .error .value := by
      unfold integrate
      rw [hw]
      simp only
      rw [if_pos ⟨hl, hsz⟩]
    refine ⟨s, h, ?_, ?_, ?_⟩
    · rw [hi]
      unfold integProc
      simp only
      rw [if_pos hsz]
      exact Reach.refl _
    · rw [hi]; intro r hr; cases hr
    · intro e _ hc; exact absurd hsz hc
  · cases hrows : gridRows I.cores I.pick I.row I.seq with
    | error e =>
      have hi : (integrate I kind w).1 = .error e := by
        unfold integrate integBody
        rw [hw]
        simp only
        rw [if_neg (fun hc => hsz hc.2), hrows]
      obtain ⟨s1, g, hg, hlen, hreach⟩ := create_reach s h (I.seq.length * I.shape.prod) (R := NDArr (Fl K))
      refine ⟨s1, some g, ?_, ?_, ?_⟩
      · rw [hi]
        unfold integProc
        simp only
        rw [if_neg hsz, hrows]
        exact hreach _
      · rw [hi]; intro r hr; cases hr
      · intro _ _ _; rw [hg]; simp
    | ok rows =>
      by_cases hsh : ∀ r ∈ rows, r.shape = I.shape
      · have hm := (gridRows_iff I.cores I.pick I.row I.seq rows).1 hrows
        have hlen : rows.length = I.seq.length := mapE_length hm
        have hne : rows ≠ [] := by
          rintro rfl
          rw [← hlen] at hsz; simp at hsz
        have hf := fun i (hi : i < rows.length) => fileRow_spec (s := I.shape) hsh
          (init := List.replicate (I.seq.length * I.shape.prod) (some 0)) (by simp [hlen])
          (ho (rows.zipIdx.flatMap fun p => rowWrites I.shape.prod p.2 p.1)) hi
        have hr := combineFile_spec kind hne hlen hsh hf
        obtain ⟨s', h', hs', hreach⟩ := integProc_reach I kind hsz hrows hsh hr s h
        have hi := (integrate_iff I ho kind w _).2 ⟨⟨_, hw⟩, fun _ => hsz, rows, hm, hne, hsh, rfl⟩
        refine ⟨s', h', by rw [hi]; exact hreach, fun _ _ => hs', ?_⟩
        rw [hi]; intro e he; cases he
      · have hi : (integrate I kind w).1 = .error .value := by
          unfold integrate integBody
          rw [hw]
          simp only
          rw [if_neg (fun hc => hsz hc.2), hrows]
          simp only [hl, if_true]
          rw [if_neg hsh]
        obtain ⟨s1, g, hg, hlen, hreach⟩ := create_reach s h (I.seq.length * I.shape.prod) (R := NDArr (Fl K))
        refine ⟨s1, some g, ?_, ?_, ?_⟩
        · rw [hi]
          unfold integProc
          simp only
          rw [if_neg hsz, hrows]
          simp only
          rw [if_neg hsh]
          exact hreach _
        · rw [hi]; intro r hr; cases hr
        · intro _ _ _; rw [hg]; simp

/-- **C66** (different scratch files): any number of memory efficient integrations, run at the same time with any
interleaving of their file operations and whatever was at their paths before, give exactly the results (or exceptions)
they give alone, provided no two of them use the same path; each of them finishes once it has had enough turns; and a
successful one leaves nothing at its path.

Missing from the full claim: integrations that use the same directory, see `C66_same_directory_false`. -/
theorem C66_isolated_partial {ι : Type} [DecidableEq ι] (I : ι → Integ K) (kind : ι → Kind)
    (hl : ∀ p, (I p).lessMemory = true) (ho : ∀ p, OrderOK (I p))
    (hpath : ∀ p q, p ≠ q → (I p).scratch ≠ (I q).scratch)
    (w : ι → IWorld K) (hw : ∀ p, ∃ b, suppress (I p).cores (w p).env = .ok b)
    (files : String → PathState K) (p : ι) :
    (∀ (sched : List ι) (x : Except Err (NDArr (Fl K))),
      ((Sys.run (fun q => (I q).scratch) sched ⟨files, fun q => ⟨integProc (I q) (kind q), none⟩⟩).procs p).prog =
        .done x →
      x = (integrate (I p) (kind p) (w p)).1 ∧
      ((∃ r, x = .ok r) → ((Sys.run (fun q => (I q).scratch) sched
        ⟨files, fun q => ⟨integProc (I q) (kind q), none⟩⟩).files (I p).scratch).linked = none)) ∧
    ∃ N, ∀ sched : List ι, N ≤ sched.count p →
      ((Sys.run (fun q => (I q).scratch) sched ⟨files, fun q => ⟨integProc (I q) (kind q), none⟩⟩).procs p).prog =
        .done (integrate (I p) (kind p) (w p)).1 := by
  obtain ⟨s', h', ⟨n, hn⟩, hok, -⟩ := integProc_solo (I p) (hl p) (ho p) (kind p) (w p) (hw p)
    (files (I p).scratch) none
  have hiso := fun sched => run_isolated (fun q => (I q).scratch) p (fun q hq => hpath q p hq) sched
    (⟨files, fun q => ⟨integProc (I q) (kind q), none⟩⟩ : Sys ι K (NDArr (Fl K)))
  constructor
  · intro sched x hx
    have hs := hiso sched
    -- run both to the longer of the two
    have h1 : IProc.solo n (IProc.solo (sched.count p)
        (files (I p).scratch, (⟨integProc (I p) (kind p), none⟩ : Running K (NDArr (Fl K))))) =
        (s', ⟨.done (integrate (I p) (kind p) (w p)).1, h'⟩) := by
      rw [← solo_add, Nat.add_comm, solo_add, hn, solo_done]
    simp only at hs
    rw [← hs] at h1
    rcases hrun : (Sys.run (fun q => (I q).scratch) sched
      ⟨files, fun q => ⟨integProc (I q) (kind q), none⟩⟩).procs p with ⟨prog, hd⟩
    rw [hrun] at hx h1
    simp only at hx
    rw [hx, solo_done] at h1
    simp only [Prod.mk.injEq, Running.mk.injEq, IProc.done.injEq] at h1
    obtain ⟨h2, h3, h4⟩ := h1
    refine ⟨h3, ?_⟩
    rintro ⟨r, hr⟩
    rw [h2]
    exact hok r (by rw [← h3, hr])
  · refine ⟨n, fun sched hc => ?_⟩
    have hs := hiso sched
    obtain ⟨m, hm⟩ := Nat.exists_eq_add_of_le hc
    simp only at hs
    rw [hm, solo_add, hn, solo_done] at hs
    have := congrArg (fun c => c.2.prog) hs
    exact this

/-- an integration over two points with one position, whose rows are all `v` -/
def constInteg (v : ℚ) : Integ ℚ :=
  { cores := 1, lessMemory := true, seq := [0, 1], shape := [1],
    scratch := "./__pyanen_numerical_integration__.dat",
    row := fun _ => .ok ⟨[1], [some v], rfl⟩, pick := fun _ => 0, order := id }

/-- the settings of these integrations -/
def plainEnv : IWorld ℚ :=
  ⟨fun k => if k = "pyanen_tqdm_disable" then some "True".toList
    else if k = "pyanen_tqdm_workers" then some "1".toList else none, fun _ => none⟩

/-- both processes at the start, no file anywhere -/
def twoStart (v v' : ℚ) : Sys Bool ℚ (NDArr (Fl ℚ)) :=
  ⟨fun _ => ⟨none, fun _ => [], 0⟩, fun b => ⟨integProc (constInteg (if b then v else v')) .crps, none⟩⟩

/-- the first process computes its rows, then the second one computes its own, then the first one continues -/
def overwriteSchedule : List Bool :=
  List.replicate 4 true ++ List.replicate 4 false ++ List.replicate 6 true

/-- the number computed by a process that has finished -/
def resultAt (p : IProc ℚ (NDArr (Fl ℚ))) : Option (Except Err (List (Fl ℚ))) :=
  match p with
  | .done (.ok r) => some (.ok r.data)
  | .done (.error e) => some (.error e)
  | _ => none

/-- **C66** is false for two integrations in the same directory (the default is the current directory, or the working
directory of the verifier, and the file name is fixed): the first returns 0 without any error although its score is 1,
and the second is left with a missing file. -/
theorem C66_same_directory_false : ∃ sched : List Bool,
    resultAt ((Sys.run (fun _ => (constInteg 0).scratch) sched (twoStart 1 0)).procs true).prog =
      some (.ok [some 0]) ∧
    ((integrate (constInteg 1) .crps plainEnv).1.toOption.map (·.data) = some [some 1]) ∧
    resultAt ((Sys.run (fun _ => (constInteg 0).scratch) (sched ++ List.replicate 5 false)
      (twoStart 1 0)).procs false).prog = some (.error .generic) := by
  exact ⟨overwriteSchedule, by decide +kernel, by decide +kernel, by decide +kernel⟩

/-- a short integration (one point) beside one over two points -/
def shortStart : Sys Bool ℚ (NDArr (Fl ℚ)) :=
  ⟨fun _ => ⟨none, fun _ => [], 0⟩,
    fun b => ⟨integProc (if b then constInteg 1 else { constInteg 1 with seq := [0] }) .crps, none⟩⟩

/-- It can also fail outright: the file created by the second, shorter integration is too short for the first, which then
raises although alone it succeeds. -/
theorem C66_short_file_false :
    resultAt ((Sys.run (fun _ => (constInteg 0).scratch) [true, false, true] shortStart).procs true).prog =
      some (.error .value) ∧
    ((integrate (constInteg 1) .crps plainEnv).1.toOption.map (·.data) = some [some 1]) := by
  refine ⟨?_, ?_⟩ <;> decide +kernel

/-- two integrations in different directories, with the same overwriting schedule -/
example : resultAt ((Sys.run (fun b => if b then "a" else "b") overwriteSchedule (twoStart 1 0)).procs true).prog =
    some (.ok [some 1]) := by decide +kernel

/-- the hypotheses of `C66_isolated_partial` hold for a pair of integrations -/
example : ∃ I : Bool → Integ ℚ, (∀ p, (I p).lessMemory = true) ∧ (∀ p, OrderOK (I p)) ∧
    (∀ p q, p ≠ q → (I p).scratch ≠ (I q).scratch) ∧
    ∀ p : Bool, ∃ b, suppress (I p).cores plainEnv.env = .ok b := by
  refine ⟨fun p => { constInteg 1 with scratch := if p then "a" else "b" }, fun _ => rfl,
    fun _ l => List.Perm.refl l, by decide, fun p => ⟨((1, 1), _), rfl⟩⟩

/-- **C66**: an exception while computing the rows leaves the scratch file behind. -/
theorem C66_leftover (I : Integ K) (kind : Kind) (w : IWorld K) (hl : I.lessMemory = true)
    (hsz : I.seq.length * I.shape.prod ≠ 0) (hw : ∃ p, suppress I.cores w.env = .ok p) {e : Err}
    (he : (integrate I kind w).1 = .error e) : (integrate I kind w).2.files I.scratch ≠ none := by
  obtain ⟨⟨b, env1⟩, hw⟩ := hw
  unfold integrate at he ⊢
  rw [hw] at he ⊢
  simp only at he ⊢
  rw [if_neg (fun hc => hsz hc.2)] at he ⊢
  simp only [hl, if_true] at he ⊢
  unfold integBody at he ⊢
  split
  · rename_i e' w3 heq
    split at heq
    · cases heq; simp [IWorld.setFile]
    · simp only [hl, if_true] at heq
      split at heq
      · split at heq
        · rename_i hn; simp [IWorld.setFile] at hn
        · rw [← (Prod.mk.inj heq).2]; simp [IWorld.setFile]
      · cases heq; simp [IWorld.setFile]
  · rename_i r w3 heq
    rw [heq] at he
    cases he

/-- a raising memory efficient integration -/
example : ∃ e, (integrate { constInteg 1 with row := fun _ => .error .value } .crps plainEnv).1 = .error e :=
  ⟨.value, by decide +kernel⟩

end Props
