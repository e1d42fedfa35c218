import Verif.Lemmas.Jobs
import Verif.Lemmas.Api
import Verif.Lemmas.Integration
import Verif.Model.Workers
import Verif.Spec.Workers

/-! Helper lemmas about jobs that use different files. -/

namespace Model
open Np Spec

variable {V B ι : Type} [DecidableEq ι]

/-- the calls around a program only use names in `S` -/
def StackIn (S : Name → Prop) (st : List (Option Name × (V → Prog V))) : Prop :=
  ∀ f ∈ st, (∀ n, f.1 = some n → S n) ∧ ∀ v, AllIn S (f.2 v)

/-- a job that only uses names in `S`, in the directory `wd` -/
def JobIn (S : Name → Prop) (wd : Option Path) : JState V → Prop
  | .run p st => AllIn S p ∧ StackIn S st
  | .writing d n _ _ k st => wd = some d ∧ S n ∧ (∀ v, AllIn S (k v)) ∧ StackIn S st
  | .done _ => True

/-- the same files with names in `S` -/
def AgreeOn (S : Name → Prop) (wd : Option Path) (f g : Disk B) : Prop :=
  ∀ d n, wd = some d → S n → f (filePath d n) = g (filePath d n)

theorem AgreeOn.set {S : Name → Prop} {wd : Option Path} {f g : Disk B} (h : AgreeOn S wd f g) (q : Path) (c : List B) :
    AgreeOn S wd (f.set q c) (g.set q c) := by
  intro d n hd hn
  unfold Disk.set
  split
  · rfl
  · exact h d n hd hn

/-- a step depends on the files with names in `S` only, and changes no other files -/
theorem step_iso (F : Pickle V B) {S : Name → Prop} {wd : Option Path} {f g : Disk B} {j : Job V}
    (hj : JobIn S wd j.state) (h : AgreeOn S wd f g) :
    (Job.step F wd f j).2 = (Job.step F wd g j).2 ∧ AgreeOn S wd (Job.step F wd f j).1 (Job.step F wd g j).1 ∧
      JobIn S wd (Job.step F wd f j).2.state ∧
      ∀ q, (∀ d n, wd = some d → S n → q ≠ filePath d n) → (Job.step F wd f j).1 q = f q := by
  obtain ⟨s, sd, ps⟩ := j
  cases s with
  | done r => exact ⟨rfl, h, trivial, fun _ _ => rfl⟩
  | writing d n v i k st =>
    obtain ⟨hd, hn, hk, hst⟩ := hj
    simp only [Job.step]
    cases (F.enc v)[i]? with
    | none => exact ⟨rfl, h, ⟨hk v, hst⟩, fun _ _ => rfl⟩
    | some b =>
      refine ⟨rfl, ?_, ⟨hd, hn, hk, hst⟩, fun q hq => ?_⟩
      · dsimp only
        rw [h d n hd hn]
        exact h.set _ _
      · simp [Disk.set, hq d n hd hn]
  | run p st =>
    obtain ⟨hp, hst⟩ := hj
    cases p with
    | ret r =>
      cases r with
      | error e => exact ⟨rfl, h, trivial, fun _ _ => rfl⟩
      | ok v =>
        cases st with
        | nil => exact ⟨rfl, h, trivial, fun _ _ => rfl⟩
        | cons fr st =>
          obtain ⟨name, k⟩ := fr
          have h1 := hst _ List.mem_cons_self
          have h2 : StackIn S st := fun f hf => hst f (List.mem_cons_of_mem _ hf)
          cases wd with
          | none => exact ⟨rfl, h, ⟨h1.2 v, h2⟩, fun _ _ => rfl⟩
          | some d =>
            cases name with
            | none => exact ⟨rfl, h, ⟨h1.2 v, h2⟩, fun _ _ => rfl⟩
            | some n =>
              refine ⟨rfl, h.set _ _, ⟨rfl, h1.1 n rfl, h1.2, h2⟩, fun q hq => ?_⟩
              simp [Job.step, Disk.set, hq d n rfl (h1.1 n rfl)]
    | draw k => exact ⟨rfl, h, ⟨hp _, hst⟩, fun _ _ => rfl⟩
    | call name body k =>
      obtain ⟨hn, hb, hk⟩ := hp
      have h2 : StackIn S ((name, k) :: st) := by
        intro f hf
        rcases List.mem_cons.1 hf with rfl | hf
        · exact ⟨hn, hk⟩
        · exact hst f hf
      cases wd with
      | none => exact ⟨rfl, h, ⟨hb, h2⟩, fun _ _ => rfl⟩
      | some d =>
        cases name with
        | none => exact ⟨rfl, h, ⟨hb, h2⟩, fun _ _ => rfl⟩
        | some n =>
          simp only [Job.step]
          rw [← h d n rfl (hn n rfl)]
          cases f (filePath d n) with
          | none => exact ⟨rfl, h, ⟨hb, h2⟩, fun _ _ => rfl⟩
          | some c =>
            dsimp only
            cases F.dec c with
            | none => exact ⟨rfl, h, trivial, fun _ _ => rfl⟩
            | some v => exact ⟨rfl, h, ⟨hk v, hst⟩, fun _ _ => rfl⟩

/-- jobs with different names do what they do alone, on any disk with the same files of their own -/
theorem run_iso (F : Pickle V B) (wd : Option Path) {S : ι → Name → Prop} (hS : ∀ i j n, S i n → S j n → i = j) (i : ι)
    (sched : List ι) {σ : Jobs ι V B} (hj : ∀ j, JobIn (S j) wd (σ.job j).state) {g : Disk B}
    (hg : AgreeOn (S i) wd σ.disk g) :
    (σ.run F (fun _ => wd) sched).job i = (alone F wd (sched.count i) (g, σ.job i)).2 := by
  induction sched generalizing σ g with
  | nil => rfl
  | cons a as ih =>
    have ha := step_iso F (hj a) (f := σ.disk) (g := σ.disk) fun _ _ _ _ => rfl
    have hj' : ∀ j, JobIn (S j) wd ((σ.step F (fun _ => wd) a).job j).state := by
      intro j
      by_cases hja : j = a
      · subst hja
        simp only [Jobs.step, ↓reduceIte]
        exact ha.2.2.1
      · simp only [Jobs.step, hja, ↓reduceIte]
        exact hj j
    by_cases hia : a = i
    · subst hia
      have h1 := step_iso F (hj a) hg
      have := ih hj' (g := (Job.step F wd g (σ.job a)).1) h1.2.1
      rw [List.count_cons_self]
      refine this.trans ?_
      simp only [Jobs.step, ↓reduceIte, alone, h1.1]
    · have h2 : AgreeOn (S i) wd (σ.step F (fun _ => wd) a).disk g := by
        intro d n hd hn
        rw [← hg d n hd hn]
        apply ha.2.2.2
        intro d' n' hd' hn' hq
        obtain ⟨-, rfl⟩ := filePath_inj hq
        exact hia (hS _ _ _ hn' hn)
      have := ih hj' h2
      rw [List.count_cons_of_ne hia]
      refine this.trans ?_
      simp only [Jobs.step, Ne.symm hia, ↓reduceIte]

theorem alone_done (F : Pickle V B) (wd : Option Path) (m : Nat) (c : Disk B × Job V) {r : Except Err V}
    (h : c.2.state = .done r) : alone F wd m c = c := by
  induction m with
  | zero => rfl
  | succ m ih =>
    obtain ⟨f, s, sd, ps⟩ := c
    obtain rfl : s = .done r := h
    exact ih

/-- a file system with the files of a disk -/
def fsOf (F : Pickle V B) (wd : Option Path) (disk : Disk B) : FS V := fun q =>
  if wd = some q then some .dir else
    match disk q with
    | none => none
    | some c => match F.dec c with
      | some v => some (.file (.full v))
      | none => some (.file .torn)

theorem sameFiles_fsOf (F : Pickle V B) (wd : Option Path) (disk : Disk B) : SameFiles F wd (fsOf F wd disk) disk := by
  intro d hd
  subst hd
  refine ⟨by simp [fsOf], fun n => ?_⟩
  have hne : ¬ some d = some (filePath d n) := fun h => filePath_ne d n (Option.some.inj h).symm
  unfold fsOf
  rw [if_neg hne]
  cases h : disk (filePath d n) with
  | none => exact .inl ⟨rfl, rfl⟩
  | some c =>
    right
    cases h2 : F.dec c with
    | some v => exact .inl ⟨v, c, by simp [h2], rfl, h2⟩
    | none => exact .inr ⟨c, by simp [h2], rfl, h2⟩

/-- a job that is left alone ends with what the sequential program gives -/
theorem alone_ends {F : Pickle V B} (hF : PickleOK F) (wd : Option Path) (p : Prog V) (disk : Disk B) (sd : Nat → Nat) :
    ∃ M, ∀ m, M ≤ m →
      (alone F wd m (disk, ⟨.run p [], sd, 0⟩)).2.state = .done (p.run wd ⟨fsOf F wd disk, sd, 0, []⟩).1 := by
  obtain ⟨m, disk', -, -, h⟩ := alone_run hF wd p ⟨fsOf F wd disk, sd, 0, []⟩ disk [] (sameFiles_fsOf F wd disk)
  cases hr : (p.run wd ⟨fsOf F wd disk, sd, 0, []⟩).1 with
  | ok v =>
    rw [hr] at h
    refine ⟨m + 1, fun m' hm => ?_⟩
    obtain ⟨l, rfl⟩ := Nat.exists_eq_add_of_le hm
    rw [alone_add, alone_add]
    dsimp only at h ⊢
    rw [h, alone_done F wd l (alone F wd 1 _) (r := .ok v) rfl]
    rfl
  | error e =>
    rw [hr] at h
    obtain ⟨ps, h⟩ := h
    refine ⟨m, fun m' hm => ?_⟩
    obtain ⟨l, rfl⟩ := Nat.exists_eq_add_of_le hm
    rw [alone_add]
    dsimp only at h ⊢
    rw [h, alone_done F wd l _ (r := .error e) rfl]

/-- once it has ended its result is settled -/
theorem alone_result {F : Pickle V B} (hF : PickleOK F) (wd : Option Path) (p : Prog V) (disk : Disk B) (sd : Nat → Nat)
    {m : Nat} {r : Except Err V} (h : (alone F wd m (disk, ⟨.run p [], sd, 0⟩)).2.state = .done r) :
    r = (p.run wd ⟨fsOf F wd disk, sd, 0, []⟩).1 := by
  obtain ⟨M, hM⟩ := alone_ends hF wd p disk sd
  have h1 := hM (m + M) (by omega)
  rw [alone_add, alone_done F wd M _ h, h] at h1
  cases h1
  rfl

/-- a program whose files hold nothing or what they should gives what it gives without saving -/
theorem alone_right {F : Pickle V B} (wd : Option Path) {p : Prog V} {S : Name → Prop}
    {Val : Name → V → Prop} (hS : AllIn S p) (hA : Agree S Val p) (hD : Det p) {disk : Disk B}
    (hd : ∀ d n c, wd = some d → disk (filePath d n) = some c → ∃ v, F.dec c = some v ∧ (S n → Val n v))
    (sd : Nat → Nat) (w : World V) : (p.run wd ⟨fsOf F wd disk, sd, 0, []⟩).1 = memo p w := by
  have h := (run_clean p hA ⟨fsOf F wd disk, sd, 0, []⟩ (wd := wd) fun d hwd => by
    refine ⟨by simp [fsOf, hwd], fun n => ?_⟩
    have hne : ¬ some d = some (filePath d n) := fun h => filePath_ne d n (Option.some.inj h).symm
    dsimp only [fsOf]
    rw [hwd, if_neg hne]
    cases h : disk (filePath d n) with
    | none => exact .inl rfl
    | some c =>
      right
      obtain ⟨v, h1, h2⟩ := hd d n c hwd h
      exact ⟨v, by simp [h1], h2⟩).1 hS
  exact poss_det hD h (poss_run_none p w)

/-- all tasks have ended -/
theorem allEnded_some {n : Nat} {σ : Jobs (Fin n) V B} {r : Fin n → Except Err V}
    (h : ∀ i, ended (σ.job i).state = some (r i)) :
    allEnded σ = some ((List.finRange n).map fun i => (i.val, r i)) := by
  unfold allEnded
  induction List.finRange n with
  | nil => rfl
  | cons i l ih =>
    rw [List.mapM_cons, ih, h i]
    rfl

theorem allEnded_all {n : Nat} {σ : Jobs (Fin n) V B} {l : List (Nat × Except Err V)} (h : allEnded σ = some l) (i : Fin n) :
    ∃ r, ended (σ.job i).state = some r := by
  unfold allEnded at h
  have key : ∀ (is : List (Fin n)) l, (is.mapM fun i => (ended (σ.job i).state).map fun r => (i.val, r)) = some l →
      ∀ i ∈ is, ∃ r, ended (σ.job i).state = some r := by
    intro is
    induction is with
    | nil => simp
    | cons a as ih =>
      intro l hl i hi
      rw [List.mapM_cons] at hl
      cases ha : ended (σ.job a).state with
      | none => simp [ha] at hl
      | some r =>
        rcases List.mem_cons.1 hi with rfl | hi
        · exact ⟨r, ha⟩
        · cases has : (as.mapM fun i => (ended (σ.job i).state).map fun r => (i.val, r)) with
          | none => simp [ha, has] at hl
          | some l' => exact ih l' has i hi
  exact key _ l h i (List.mem_finRange i)

theorem map_finRange_zipIdx {α β : Type} (pts : List α) (row : α → β) :
    ((List.finRange pts.length).map fun i => (i.val, row pts[i])) = pts.zipIdx.map fun p => (p.2, row p.1) := by
  apply List.ext_getElem
  · simp
  · intro i h1 h2
    simp

theorem memo_det {p : Prog V} (h : Det p) (w w' : World V) : memo p w = memo p w' :=
  poss_det h (poss_run_none p w) (poss_run_none p w')

/-- one worker without saving -/
theorem callAll_memo {A : Type} (f : A → Except Err (Option Name) × Prog V) (pts : List A)
    (hd : ∀ a ∈ pts, Det (f a).2) (g : List V → Except Err V) (w w' : World V) :
    memo (Prog.callAll (pts.map f) fun vs => .ret (g vs)) w =
      (mapE (fun a => memo (.callName (f a).1 (f a).2 fun v => .ret (.ok v)) w') pts >>= g) := by
  induction pts generalizing g w with
  | nil => rfl
  | cons a pts ih =>
    simp only [List.map_cons, Prog.callAll, mapE]
    have hda := hd a List.mem_cons_self
    have hdet : Det (.callName (f a).1 (f a).2 fun v => .ret (.ok v) : Prog V) := det_callName hda fun _ => trivial
    rw [memo_det hdet w' w]
    obtain ⟨nm, body⟩ := f a
    cases nm with
    | error e => rfl
    | ok n =>
      have h1 : ∀ k : V → Prog V, memo (Prog.callName (.ok n) body k) w =
          match body.run none w with
          | (.error e, _) => .error e
          | (.ok v, w1) => memo (k v) w1 := by
        intro k
        simp only [memo, Prog.callName, Prog.run, load_none, save_none]
        rcases hb : body.run none w with ⟨r, w1⟩
        cases r <;> rfl
      rw [h1, h1]
      rcases hb : body.run none w with ⟨r, w1⟩
      cases r with
      | error e => rfl
      | ok v =>
        dsimp only
        rw [ih (fun a ha => hd a (List.mem_cons_of_mem _ ha)) (fun vs => g (v :: vs)) w1]
        show _ = ((match mapE _ pts with
          | .error e => .error e
          | .ok ys => .ok (v :: ys)) >>= g)
        cases mapE (fun a => memo (.callName (f a).1 (f a).2 fun v => .ret (.ok v)) w') pts <;> rfl

/-! ### the tasks of an integration -/

variable {X A : Type}

/-- the names a task uses -/
def taskNames (I : ArgInfo A) (a : A) (n : Name) : Prop :=
  slotName I (.cdf none (some a)) = .ok (some n) ∨ slotName I (.brier none (some a)) = .ok (some n)

theorem taskNames_inj {I : ArgInfo A} (hI : TextOK I) {a b : A} {n : Name} (ha : taskNames I a n) (hb : taskNames I b n) :
    a = b := by
  rcases ha with ha | ha <;> rcases hb with hb | hb
  all_goals
    have := slotName_inj hI ha hb
    simp_all

theorem allIn_task (I : ArgInfo A) (P : Prims X V A) (x : X) (kind : Kind) (a : A) :
    AllIn (taskNames I a) (taskProg .hurdle I P x kind a) := by
  have hc : ∀ n, slotName I (.cdf none (some a)) = .ok (some n) → taskNames I a n := fun n h => .inl h
  have hb : ∀ n, slotName I (.brier none (some a)) = .ok (some n) → taskNames I a n := fun n h => .inr h
  cases kind
  · exact allIn_callName hb (allIn_callName hc trivial fun _ => trivial) fun _ => trivial
  · exact allIn_callName hc trivial fun _ => trivial
  · exact allIn_callName hc trivial fun _ => trivial

theorem det_task (I : ArgInfo A) (P : Prims X V A) (x : X) (kind : Kind) (a : A) :
    Det (task .hurdle I P x kind a).2 := by
  cases kind
  · exact det_callName trivial fun _ => trivial
  · exact trivial
  · exact trivial

theorem agree_task {I : ArgInfo A} (hI : TextOK I) (P : Prims X V A) (x : X) (kind : Kind) (a : A) :
    Agree (taskNames I a) (SVal .hurdle I P x .none) (taskProg .hurdle I P x kind a) := by
  have hval : ∀ (s : Slot A) (n : Name), slotName I s = .ok (some n) → ∀ v, SVal .hurdle I P x .none n v ↔
      poss (slotBody .hurdle I P x .none .none s) (.ok v) := by
    intro s n hs v
    constructor
    · rintro ⟨s', hs', hp⟩
      rwa [slotName_inj hI hs hs']
    · exact fun hp => ⟨s, hs, hp⟩
  have hc : ∀ k : V → Prog V, (∀ v, Agree (taskNames I a) (SVal .hurdle I P x .none) (k v)) →
      Agree (taskNames I a) (SVal .hurdle I P x .none) (cdfCall .hurdle I P x none (some a) k) :=
    fun k hk => agree_callName (fun n hn _ => ⟨trivial, hval _ n hn⟩) trivial hk
  cases kind
  · refine agree_callName (fun n hn _ => ⟨?_, hval (.brier none (some a)) n hn⟩) (hc _ fun _ => trivial) fun _ => trivial
    exact allIn_callName (fun n h => .inl h) trivial fun _ => trivial
  · exact hc _ fun _ => trivial
  · exact hc _ fun _ => trivial

/-- every task that ends has the row it would have had without saving -/
theorem worker_right {F : Pickle V B} (hF : PickleOK F) {wd : Option Path} {I : ArgInfo A} (hI : TextOK I) {P : Prims X V A}
    {x : X} (kind : Kind) {pts : List A} (hnd : pts.Nodup) {disk : Disk B} (hdisk : EarlierFiles F wd I P x pts disk)
    (seed : Nat → Nat → Nat) (i : Fin pts.length) (w : World V) :
    (∀ sched r, ended ((workers F wd .hurdle I P x kind pts disk seed sched).job i).state = some r →
        r = memo (taskProg .hurdle I P x kind pts[i]) w) ∧
      ∃ M, ∀ sched, M ≤ sched.count i →
        ∃ r, ended ((workers F wd .hurdle I P x kind pts disk seed sched).job i).state = some r := by
  classical
  -- only the files of the task itself
  let g : Disk B := fun q => if ∃ d n, wd = some d ∧ taskNames I pts[i] n ∧ q = filePath d n then disk q else none
  have hiso : ∀ sched, (workers F wd .hurdle I P x kind pts disk seed sched).job i =
      (alone F wd (sched.count i) (g, ⟨.run (taskProg .hurdle I P x kind pts[i]) [], seed i, 0⟩)).2 := by
    intro sched
    refine run_iso F wd (S := fun j => taskNames I pts[j]) ?_ i sched (g := g) ?_ ?_
    · intro j k n hj hk
      have := taskNames_inj hI hj hk
      exact Fin.ext (List.getElem_inj hnd |>.1 this)
    · intro j
      exact ⟨allIn_task I P x kind _, fun f hf => absurd hf List.not_mem_nil⟩
    · intro d n hd hn
      exact (if_pos ⟨d, n, hd, hn, rfl⟩).symm
  have hright := alone_right (F := F) wd (allIn_task I P x kind pts[i]) (agree_task hI P x kind pts[i])
    (det_callName (det_task I P x kind pts[i]) fun _ => trivial) (disk := g) (by
      intro d n c hd hc
      simp only [g] at hc
      split at hc
      · rename_i hex
        obtain ⟨d', n', -, hn', hq⟩ := hex
        obtain ⟨-, rfl⟩ := filePath_inj hq
        have : ∃ s, (s = .cdf none (some pts[i]) ∨ s = .brier none (some pts[i])) ∧ slotName I s = .ok (some n) := by
          rcases hn' with h | h
          · exact ⟨_, .inl rfl, h⟩
          · exact ⟨_, .inr rfl, h⟩
        obtain ⟨s, hs, hs'⟩ := this
        obtain ⟨v, w', h1, h2⟩ := hdisk d pts[i] s n c hd (List.getElem_mem _) hs hs' hc
        refine ⟨v, h1, fun _ => ⟨s, hs', ?_⟩⟩
        rw [← h2]
        exact poss_run_none _ _
      · cases hc) (seed i) w
  constructor
  · intro sched r hr
    rw [hiso] at hr
    rw [← hright]
    apply alone_result hF wd _ g (seed i) (m := sched.count i)
    unfold ended at hr
    split at hr
    · rename_i r' hs
      cases hr
      exact hs
    · cases hr
  · obtain ⟨M, hM⟩ := alone_ends hF wd (taskProg .hurdle I P x kind pts[i]) g (seed i)
    refine ⟨M, fun sched hs => ?_⟩
    rw [hiso, hM _ hs]
    exact ⟨_, rfl⟩

end Model
