import Verif.Lemmas.Jobs
import Verif.Props.Saving

/-!
# Jobs that share a working directory: C78
-/

set_option linter.unusedSectionVars false

namespace Props
open Np Model Spec

variable {X V A B ι : Type} [DecidableEq ι]

/-- the jobs of a request each, on verifiers that were constructed before, in an empty working directory.  Earlier jobs
are part of the schedule. -/
def jobsOf (C : Cls) (I : ArgInfo A) (P : Prims X V A) (o : ι → Obj X) (r : ι → Req A) (seed : ι → Nat → Nat) :
    Jobs ι V B :=
  Jobs.start (fun _ => none) (fun i => metricProg C I P (o i).ext (o i).avg (o i).boot (r i)) seed

/-- the outcome of job `i`: `none` while it runs -/
def outcome (σ : Jobs ι V B) (i : ι) : Option (Except Err (Option V)) :=
  match (σ.job i).state with
  | .done (.ok v) => some (.ok (some v))
  | .done (.error e) => some (.error e)
  | _ => none

/-- **C78**, the full claim: the jobs verify the same data, with the same averaging axes unless they only ask for metrics
whose saved form does not depend on them.  Then every job that ends has an outcome that it can also have without
saving, for every interleaving of the jobs, any of which may be killed at any moment. -/
def C78_statement (C : Cls) (I : ArgInfo A) (P : Prims X V A) (mids : FS V → Path → List (FS V))
    (F : Pickle V B) : Prop :=
  ∀ (n : ℕ) (o : Fin n → Obj X) (r : Fin n → Req A) (seed : Fin n → Nat → Nat) (x : X) (a0 : PyAxis),
    (∀ i, (o i).ext = x) → ((∀ i, (o i).avg = a0) ∨ ∀ i, Reaggregates (r i)) → ∀ (sched : List (Fin n)) i out,
    outcome ((jobsOf C I P o r seed).run F (fun i => (o i).wd) sched) i = some out → Correct C I P mids (r i) (o i) out

theorem jobs_sound (C : Cls) {I : ArgInfo A} (hI : TextOK I) (P : Prims X V A) (mids : FS V → Path → List (FS V))
    {F : Pickle V B} (hF : PickleOK F) (full : Prop) {o : ι → Obj X} {r : ι → Req A} {seed : ι → Nat → Nat} {x : X}
    {a0 : PyAxis} (hx : ∀ i, (o i).ext = x) (ha : (∀ i, (o i).avg = a0) ∨ ∀ i, Reaggregates (r i)) {sched : List ι}
    (hw : NoDoubleWrite F (fun i => (o i).wd) sched (jobsOf C I P o r seed))
    (hr : full → NoReadDuringWrite F (fun i => (o i).wd) sched (jobsOf C I P o r seed)) {i : ι}
    {out : Except Err (Option V)}
    (hout : outcome ((jobsOf C I P o r seed).run F (fun i => (o i).wd) sched) i = some out) :
    Correct C I P mids (r i) (o i) out ∨ (¬ full ∧ out = .error .eof) := by
  -- what the names stand for
  obtain ⟨S, Val, hS, hA⟩ : ∃ (S : Name → Prop) (Val : Name → V → Prop),
      (∀ i, AllIn S (metricProg C I P (o i).ext (o i).avg (o i).boot (r i))) ∧
      ∀ i, Agree S Val (metricProg C I P (o i).ext (o i).avg (o i).boot (r i)) := by
    rcases ha with ha | ha
    · refine ⟨fun _ => True, SVal C I P x a0, fun i => allIn_true _, fun i => ?_⟩
      rw [hx i, ha i]
      exact agree_all hI C P x a0 _ _
    · refine ⟨stableName I, SVal C I P x .none, fun i => allIn_reaggregates C I P (ha i) _ _ _, fun i => ?_⟩
      rw [hx i]
      exact agree_stable hI C P x .none _ _ _
  have h0 : JobsInv S Val F full (fun i => metricProg C I P (o i).ext (o i).avg (o i).boot (r i))
      (jobsOf C I P o r seed : Jobs ι V B) :=
    ⟨fun i => ⟨⟨hS i, hA i⟩, fun _ h => h⟩, fun d n c _ hc => by cases hc⟩
  have h1 := (jobsInv_run hF sched h0 hw hr).1 i
  have correct : ∀ q : Except Err V, poss (metricProg C I P (o i).ext (o i).avg (o i).boot (r i)) q →
      Correct C I P mids (r i) (o i) (match q with | .ok v => .ok (some v) | .error e => .error e) := by
    intro q hq
    obtain ⟨w, hw⟩ := (poss_iff _ _).1 hq
    refine ⟨w, ?_⟩
    simp only [result, step, unsaved, Obj.wd]
    rcases hrun : (metricProg C I P (o i).ext (o i).avg (o i).boot (r i)).run none w with ⟨q', w'⟩
    rw [hrun] at hw
    simp only at hw
    subst hw
    cases q' <;> rfl
  unfold outcome at hout
  cases hs : (((jobsOf C I P o r seed).run F (fun i => (o i).wd) sched).job i).state with
  | run p st => rw [hs] at hout; cases hout
  | writing d n v m k st => rw [hs] at hout; cases hout
  | done q =>
    rw [hs] at hout h1
    rcases h1 with h1 | ⟨h1, rfl⟩
    · left
      have := correct q h1
      cases q with
      | ok v => simp only [Option.some.injEq] at hout; subst hout; exact this
      | error e => simp only [Option.some.injEq] at hout; subst hout; exact this
    · right
      simp only [Option.some.injEq] at hout
      exact ⟨h1, hout.symm⟩

/-- **C78** when no two jobs write the same result at the same time: a value returned is right.  Missing: a job that
reads a file while another one writes it raises `EOFError`, and without the condition it is false. -/
theorem C78_values_partial (C : Cls) {I : ArgInfo A} (hI : TextOK I) (P : Prims X V A)
    (mids : FS V → Path → List (FS V)) {F : Pickle V B} (hF : PickleOK F) {o : ι → Obj X} {r : ι → Req A}
    {seed : ι → Nat → Nat} {x : X} {a0 : PyAxis} (hx : ∀ i, (o i).ext = x)
    (ha : (∀ i, (o i).avg = a0) ∨ ∀ i, Reaggregates (r i)) {sched : List ι}
    (hw : NoDoubleWrite F (fun i => (o i).wd) sched (jobsOf C I P o r seed)) {i : ι} {out : Except Err (Option V)}
    (hout : outcome ((jobsOf C I P o r seed).run F (fun i => (o i).wd) sched) i = some out) :
    Correct C I P mids (r i) (o i) out ∨ out = .error .eof :=
  (jobs_sound C hI P mids hF False hx ha hw (fun h => h.elim) hout).imp id fun h => h.2

/-- **C78** when moreover no job reads a file that another one is writing: every outcome is right, also the
exceptions. -/
theorem C78_outcomes_partial (C : Cls) {I : ArgInfo A} (hI : TextOK I) (P : Prims X V A)
    (mids : FS V → Path → List (FS V)) {F : Pickle V B} (hF : PickleOK F) {o : ι → Obj X} {r : ι → Req A}
    {seed : ι → Nat → Nat} {x : X} {a0 : PyAxis} (hx : ∀ i, (o i).ext = x)
    (ha : (∀ i, (o i).avg = a0) ∨ ∀ i, Reaggregates (r i)) {sched : List ι}
    (hw : NoDoubleWrite F (fun i => (o i).wd) sched (jobsOf C I P o r seed))
    (hr : NoReadDuringWrite F (fun i => (o i).wd) sched (jobsOf C I P o r seed)) {i : ι} {out : Except Err (Option V)}
    (hout : outcome ((jobsOf C I P o r seed).run F (fun i => (o i).wd) sched) i = some out) :
    Correct C I P mids (r i) (o i) out :=
  (jobs_sound C hI P mids hF True hx ha hw (fun _ => hr) hout).resolve_right fun h => h.1 trivial

/-- The interleaving model is the sequential one when a job runs alone: it ends with the same result, random numbers and
files. -/
theorem C78_alone {F : Pickle V B} (hF : PickleOK F) (wd : Option Path) (p : Prog V) (w : World V) (disk : Disk B)
    (h : SameFiles F wd w.fs disk) :
    ∃ m disk' ps, alone F wd m (disk, ⟨.run p [], w.seed, w.pos⟩) = (disk', ⟨.done (p.run wd w).1, w.seed, ps⟩) ∧
      SameFiles F wd (p.run wd w).2.fs disk' := by
  obtain ⟨m, disk', h1, -, h3⟩ := alone_run hF wd p w disk [] h
  cases hr : (p.run wd w).1 with
  | ok v =>
    rw [hr] at h3
    refine ⟨m + 1, disk', (p.run wd w).2.pos, ?_, h1⟩
    rw [alone_add, h3]
    rfl
  | error e =>
    rw [hr] at h3
    obtain ⟨ps, h3⟩ := h3
    exact ⟨m, disk', ps, h3, h1⟩

/-! ### a format: arrays of numbers are written element by element -/

inductive Piece (K : Type)
  /-- a value written at once -/
  | whole (v : PyVal K)
  | head (shape : List Nat)
  | cell (x : Fl K)
  | stop
  /-- zero bytes; as a number they are 0 -/
  | zero

variable {K : Type} [Field K]

def cellsOf : List (Piece K) → Option (List (Fl K))
  | [.stop] => some []
  | .cell x :: r => (cellsOf r).map (x :: ·)
  | .zero :: r => (cellsOf r).map (some 0 :: ·)
  | _ => none

def encArr : PyVal K → List (Piece K)
  | .num a => .head a.shape :: (a.data.map .cell ++ [.stop])
  | v => [.whole v]

def decArr : List (Piece K) → Option (PyVal K)
  | [.whole v] => some v
  | .head s :: r =>
    match cellsOf r with
    | some l => if h : l.length = s.prod then some (.num ⟨s, l, h⟩) else none
    | none => none
  | _ => none

/-- the format -/
def arrPickle : Pickle (PyVal K) (Piece K) := ⟨encArr, decArr, .zero⟩

theorem cellsOf_whole (l : List (Fl K)) : cellsOf (l.map Piece.cell ++ [Piece.stop]) = some l := by
  induction l with
  | nil => rfl
  | cons x l ih => simp [cellsOf, ih]

theorem cellsOf_short (l : List (Fl K)) (i : Nat) (h : i ≤ l.length) :
    cellsOf ((l.map Piece.cell ++ [Piece.stop]).take i) = none := by
  induction l generalizing i with
  | nil =>
    obtain rfl : i = 0 := by simpa using h
    rfl
  | cons x l ih =>
    cases i with
    | zero => rfl
    | succ i => simp [cellsOf, ih i (by simpa using h)]

theorem arrPickle_ok : PickleOK (arrPickle (K := K)) := by
  constructor
  · intro v
    cases v with
    | num a =>
      simp only [arrPickle, encArr, decArr, cellsOf_whole]
      rw [dif_pos a.wf]
    | _ => rfl
  · intro v i hi
    cases v with
    | num a =>
      cases i with
      | zero => rfl
      | succ i =>
        simp only [arrPickle, encArr, List.length_cons, List.length_append, List.length_map, List.length_nil] at hi
        simp only [arrPickle, encArr, List.take_succ_cons, decArr, cellsOf_short a.data i (by omega)]
    | _ =>
      simp only [arrPickle, encArr, List.length_cons, List.length_nil] at hi
      obtain rfl : i = 0 := by omega
      rfl

/-! ### three jobs -/

/-- forecasts that are all wrong -/
def jobX : DetX ℚ := ⟨⟨[4], [some 1, some 2, some 3, some 4], rfl⟩, ⟨[4], [some 0, some 0, some 0, some 0], rfl⟩⟩

/-- three verifiers of the same data with the same working directory -/
def jobO (_ : Fin 3) : Obj (DetX ℚ) := ⟨.none, .none, .path dirW, some false, jobX⟩

def jobs3 : Jobs (Fin 3) (PyVal ℚ) (Piece ℚ) := jobsOf .determ intInfo detP jobO (fun _ => .slot .error) fun _ _ => 0

def numOfOutcome (x : Option (Except Err (Option (PyVal ℚ)))) : Option (List Nat × List (Fl ℚ)) :=
  match x with
  | some r => numOf r
  | none => none

def errOfOutcome (x : Option (Except Err (Option (PyVal ℚ)))) : Option Err :=
  match x with
  | some r => errOf r
  | none => none

/-- job 0 and job 1 find no file; job 0 has written half of the array when job 1 opens the file; both go on; job 2 reads
before job 1 is through -/
def race : List (Fin 3) := [0, 1, 0, 0, 0, 0, 1, 0, 0, 0, 1, 1, 2, 2]

/-- **C78** is false.  Two jobs that save the same result at the same time can leave zeros in the middle of the array
for a moment, and a third job then averages them: it returns 2, the mean of 1, 0, 3, 4, and not 5/2. -/
theorem C78_false : ¬ C78_statement .determ intInfo detP noMids arrPickle := by
  intro h
  have hout : numOfOutcome (outcome (jobs3.run arrPickle (fun i => (jobO i).wd) race) 2) = some ([], [some 2]) := by
    decide +kernel
  cases ho : outcome (jobs3.run arrPickle (fun i => (jobO i).wd) race) 2 with
  | none => rw [ho] at hout; cases hout
  | some out =>
    obtain ⟨w, hw⟩ := h 3 jobO (fun _ => .slot .error) (fun _ _ => 0) jobX .none (fun _ => rfl) (.inl fun _ => rfl) race
      2 out ho
    rw [C43_which .determ intInfo detP noMids (jobO 2) (.slot .error) rfl trivial w world0] at hw
    rw [ho] at hout
    simp only [numOfOutcome, ← hw] at hout
    exact absurd hout (by decide +kernel)

/-- the file that a job has open -/
def openFile : JState V → Option Path
  | .writing d n _ _ _ _ => some (filePath d n)
  | _ => none

theorem writesTo_iff (σ : Jobs ι V B) (i : ι) (q : Path) : WritesTo σ i q ↔ openFile (σ.job i).state = some q := by
  constructor
  · rintro ⟨d, n, v, m, k, st, h, rfl⟩
    rw [h]; rfl
  · intro h
    cases hs : (σ.job i).state with
    | writing d n v m k st =>
      rw [hs] at h
      cases h
      exact ⟨d, n, v, m, k, st, hs, rfl⟩
    | _ => rw [hs] at h; cases h

/-- `NoDoubleWrite` as a check -/
def checkWrites (F : Pickle V B) {n : ℕ} (wd : Fin n → Option Path) : List (Fin n) → Jobs (Fin n) V B → Bool
  | [], σ => decide (∀ i j, (openFile (σ.job i).state).isSome = true →
      openFile (σ.job i).state = openFile (σ.job j).state → i = j)
  | a :: as, σ => decide (∀ i j, (openFile (σ.job i).state).isSome = true →
      openFile (σ.job i).state = openFile (σ.job j).state → i = j) && checkWrites F wd as (σ.step F wd a)

theorem noDoubleWrite_of_check (F : Pickle V B) {n : ℕ} (wd : Fin n → Option Path) (sched : List (Fin n))
    (σ : Jobs (Fin n) V B) (h : checkWrites F wd sched σ = true) : NoDoubleWrite F wd sched σ := by
  have key : ∀ σ : Jobs (Fin n) V B, (∀ i j, (openFile (σ.job i).state).isSome = true →
      openFile (σ.job i).state = openFile (σ.job j).state → i = j) →
      ∀ i j q, WritesTo σ i q → WritesTo σ j q → i = j := by
    intro σ h i j q hi hj
    rw [writesTo_iff] at hi hj
    exact h i j (by rw [hi]; rfl) (hi.trans hj.symm)
  induction sched generalizing σ with
  | nil => exact key σ (of_decide_eq_true h)
  | cons a as ih =>
    simp only [checkWrites, Bool.and_eq_true] at h
    exact ⟨key σ (of_decide_eq_true h.1), ih _ h.2⟩

/-- The exception in `C78_values_partial` is real: with only one job writing, a job that reads at that moment raises
`EOFError`, which it never does without saving. -/
theorem C78_read_false : NoDoubleWrite arrPickle (fun i => (jobO i).wd) [0, 0, 0, 1] jobs3 ∧
    errOfOutcome (outcome (jobs3.run arrPickle (fun i => (jobO i).wd) [0, 0, 0, 1]) 1) = some .eof ∧
    ∀ w, errOf (result .determ intInfo detP noMids (.slot .error) (unsaved (jobO 1)) w) = none := by
  refine ⟨noDoubleWrite_of_check _ _ _ _ (by decide +kernel), by decide +kernel, fun w => ?_⟩
  rw [C43_which .determ intInfo detP noMids (jobO 1) (.slot .error) rfl trivial w world0]
  decide +kernel

/-- a sufficient check for `NoReadDuringWrite`: no file is open when a job makes a step that is not writing -/
def checkReads (F : Pickle V B) {n : ℕ} (wd : Fin n → Option Path) : List (Fin n) → Jobs (Fin n) V B → Bool
  | [], _ => true
  | a :: as, σ => ((openFile (σ.job a).state).isSome || decide (∀ j, openFile (σ.job j).state = none)) &&
      checkReads F wd as (σ.step F wd a)

theorem noReadDuringWrite_of_check (F : Pickle V B) {n : ℕ} (wd : Fin n → Option Path) (sched : List (Fin n))
    (σ : Jobs (Fin n) V B) (h : checkReads F wd sched σ = true) : NoReadDuringWrite F wd sched σ := by
  induction sched generalizing σ with
  | nil => trivial
  | cons a as ih =>
    simp only [checkReads, Bool.and_eq_true, Bool.or_eq_true, decide_eq_true_eq] at h
    refine ⟨fun j q hl hw => ?_, ih _ h.2⟩
    obtain ⟨d, m, body, k, st, -, hs, -⟩ := hl
    rcases h.1 with h1 | h1
    · rw [hs] at h1; cases h1
    · rw [writesTo_iff, h1 j] at hw; cases hw

/-- job 1 starts, job 0 saves, job 2 reads, job 1 goes on -/
def polite : List (Fin 3) := [1, 0, 0, 0, 0, 0, 0, 0, 0, 0, 0, 2, 2, 1]

/-- The hypotheses of both theorems can be met with several jobs at a time, although job 1 has found no file and saves
the same result again. -/
example : NoDoubleWrite arrPickle (fun i => (jobO i).wd) (polite ++ List.replicate 9 1) jobs3 ∧
    NoReadDuringWrite arrPickle (fun i => (jobO i).wd) (polite ++ List.replicate 9 1) jobs3 ∧
    ∀ i, numOfOutcome (outcome (jobs3.run arrPickle (fun i => (jobO i).wd) (polite ++ List.replicate 9 1)) i) =
      some ([], [some (5 / 2)]) :=
  ⟨noDoubleWrite_of_check _ _ _ _ (by decide +kernel), noReadDuringWrite_of_check _ _ _ _ (by decide +kernel),
    by decide +kernel⟩

/-- the disk and the file system of `C78_alone` at the start -/
example : SameFiles (arrPickle (K := ℚ)) (some dirW) (construct detP noMids (jobO 0) world0).2.fs fun _ => none := by
  intro d hd
  cases hd
  refine ⟨rfl, fun n => .inl ⟨?_, rfl⟩⟩
  have : (construct detP noMids (jobO 0) world0).2.fs = (emptyFS (V := PyVal ℚ)).set dirW (some .dir) := rfl
  rw [this]
  unfold FS.set
  rw [if_neg (filePath_ne _ _)]
  exact noPickles_emptyFS _ _

end Props
