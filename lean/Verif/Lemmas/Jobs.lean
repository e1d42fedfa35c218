import Verif.Lemmas.Cache
import Verif.Spec.Jobs

/-! Helper lemmas about interleaved jobs. -/

namespace Model
open Np Spec

variable {V B ι : Type} [DecidableEq ι]

section inv
variable (S : Name → Prop) (Val : Name → V → Prop)

/-- every name used is in `S` and stands for one thing -/
def Proper (p : Prog V) : Prop := AllIn S p ∧ Agree S Val p

/-- `p` with the calls around it can only lead to results of `p0` -/
def Inside : Prog V → List (Option Name × (V → Prog V)) → Prog V → Prop
  | p, [], p0 => Proper S Val p ∧ ∀ r, poss p r → poss p0 r
  | p, (name, k) :: st, p0 => Proper S Val p ∧ ∃ b, (∀ r, poss p r → poss b r) ∧ Inside (.call name b k) st p0

variable {S Val}

theorem Inside.proper {p : Prog V} {st : List (Option Name × (V → Prog V))} {p0 : Prog V} (h : Inside S Val p st p0) :
    Proper S Val p := by
  cases st with
  | nil => exact h.1
  | cons f st => exact h.1

theorem Inside.mono {p p' : Prog V} {st : List (Option Name × (V → Prog V))} {p0 : Prog V} (h : Inside S Val p st p0)
    (hp : Proper S Val p') (hr : ∀ r, poss p' r → poss p r) : Inside S Val p' st p0 := by
  cases st with
  | nil => exact ⟨hp, fun r h1 => h.2 r (hr r h1)⟩
  | cons f st =>
    obtain ⟨-, b, hb, hc⟩ := h
    exact ⟨hp, b, fun r h1 => hb r (hr r h1), hc⟩

theorem Proper.body {name : Option Name} {b : Prog V} {k : V → Prog V} (h : Proper S Val (.call name b k)) :
    Proper S Val b := ⟨h.1.2.1, h.2.2.1⟩

theorem Proper.cont {name : Option Name} {b : Prog V} {k : V → Prog V} (h : Proper S Val (.call name b k)) (v : V) :
    Proper S Val (k v) := ⟨h.1.2.2 v, h.2.2.2 v⟩

/-- an exception passes through all calls -/
theorem Inside.error {e : Err} {st : List (Option Name × (V → Prog V))} {p0 : Prog V}
    (h : Inside S Val (.ret (.error e)) st p0) : poss p0 (.error e) := by
  induction st with
  | nil => exact h.2 _ rfl
  | cons f st ih =>
    obtain ⟨-, b, hb, hc⟩ := h
    refine ih (hc.mono ⟨trivial, trivial⟩ ?_)
    intro r hr
    cases hr
    exact Or.inl ⟨e, rfl, hb _ rfl⟩

/-- a value returned to the innermost call -/
theorem Inside.value {name : Option Name} {k : V → Prog V} {v : V} {st : List (Option Name × (V → Prog V))}
    {p0 : Prog V} (h : Inside S Val (.ret (.ok v)) ((name, k) :: st) p0) :
    Inside S Val (k v) st p0 ∧ ∀ n, name = some n → S n ∧ Val n v := by
  obtain ⟨-, b, hb, hc⟩ := h
  have hp := hc.proper
  refine ⟨hc.mono (hp.cont v) fun r hr => Or.inr ⟨v, hb _ rfl, hr⟩, fun n hn => ?_⟩
  have hS := hp.1.1 n hn
  exact ⟨hS, ((hp.2.1 n hn hS).2 v).2 (hb _ rfl)⟩

variable (S Val)

/-- what is known about a job; `full`: files are read only when they are whole -/
def JobInv (F : Pickle V B) (full : Prop) (p0 : Prog V) (disk : Disk B) : JState V → Prop
  | .run p st => Inside S Val p st p0
  | .writing d n v i k st => S n ∧ Val n v ∧ i ≤ (F.enc v).length ∧
      disk (filePath d n) = some ((F.enc v).take i) ∧ Inside S Val (k v) st p0
  | .done r => poss p0 r ∨ (¬ full ∧ r = .error .eof)

/-- a saved result that nobody is writing is right if it can be read -/
def DiskInv (F : Pickle V B) (full : Prop) (σ : Jobs ι V B) : Prop :=
  ∀ d n c, S n → σ.disk (filePath d n) = some c → (∀ i, ¬ WritesTo σ i (filePath d n)) →
    (∀ v, F.dec c = some v → Val n v) ∧ (full → F.dec c ≠ none)

def JobsInv (F : Pickle V B) (full : Prop) (p : ι → Prog V) (σ : Jobs ι V B) : Prop :=
  (∀ i, JobInv S Val F full (p i) σ.disk (σ.job i).state) ∧ DiskInv S Val F full σ

variable {S Val}

theorem writeAt_take (zero : B) (l : List B) {i : Nat} {b : B} (h : l[i]? = some b) :
    writeAt zero (l.take i) i b = l.take (i + 1) := by
  obtain ⟨hi, rfl⟩ := List.getElem?_eq_some_iff.1 h
  have hl : (l.take i).length = i := by simp; omega
  unfold writeAt
  rw [hl, Nat.add_sub_cancel_left]
  simp only [List.replicate_one]
  rw [List.set_append_right _ _ (by omega), hl]
  rw [List.take_add_one, h]
  simp

/-- a step changes only the file the job then has open -/
theorem step_disk (F : Pickle V B) (wd : Option Path) (disk : Disk B) (j : Job V) (q : Path)
    (h : (Job.step F wd disk j).1 q ≠ disk q) :
    ∃ d n v m k st, (Job.step F wd disk j).2.state = .writing d n v m k st ∧ q = filePath d n := by
  unfold Job.step at h ⊢
  split at h
  · exact absurd rfl h
  · exact absurd rfl h
  · exact absurd rfl h
  · rename_i v name k st hs
    cases wd with
    | none => exact absurd rfl h
    | some d =>
      cases name with
      | none => exact absurd rfl h
      | some n =>
        simp only [Disk.set] at h
        refine ⟨d, n, v, 0, k, st, rfl, ?_⟩
        by_contra hq
        simp [hq] at h
  · exact absurd rfl h
  · split at h
    · split at h
      · exact absurd rfl h
      · split at h
        · exact absurd rfl h
        · exact absurd rfl h
    · exact absurd rfl h
  · rename_i d n v i k st hs
    cases hb : (F.enc v)[i]? with
    | none => rw [hb] at h; exact absurd rfl h
    | some b =>
      rw [hb] at h
      simp only [Disk.set] at h
      refine ⟨d, n, v, i + 1, k, st, rfl, ?_⟩
      by_contra hq
      simp [hq] at h

theorem jobsInv_step {F : Pickle V B} (hF : PickleOK F) {full : Prop} {p : ι → Prog V} {wd : ι → Option Path}
    {σ : Jobs ι V B} (a : ι) (h : JobsInv S Val F full p σ)
    (hex : ∀ i j q, WritesTo (σ.step F wd a) i q → WritesTo (σ.step F wd a) j q → i = j)
    (hrd : full → ∀ j q, LooksFor wd σ a q → ¬ WritesTo σ j q) :
    JobsInv S Val F full p (σ.step F wd a) := by
  obtain ⟨hj, hd⟩ := h
  have hother : ∀ i, i ≠ a → (σ.step F wd a).job i = σ.job i := fun i hi => by simp [Jobs.step, hi]
  have hself : (σ.step F wd a).job a = (Job.step F (wd a) σ.disk (σ.job a)).2 := by simp [Jobs.step]
  have hdisk : (σ.step F wd a).disk = (Job.step F (wd a) σ.disk (σ.job a)).1 := rfl
  -- only the file that `a` then writes has changed
  have hsame : ∀ q, ¬ WritesTo (σ.step F wd a) a q → (σ.step F wd a).disk q = σ.disk q := by
    intro q hq
    by_contra hne
    obtain ⟨d, n, v, m, k, st, h1, h2⟩ := step_disk F (wd a) σ.disk (σ.job a) q hne
    exact hq ⟨d, n, v, m, k, st, by rw [hself]; exact h1, h2⟩
  constructor
  · intro i
    by_cases hi : i = a
    · subst hi
      have hi := hj i
      rw [hself, hdisk]
      unfold Job.step
      cases hs : (σ.job i).state with
      | done r => rw [hs] at hi; simpa [hs] using hi
      | run q st =>
        rw [hs] at hi
        cases q with
        | ret r =>
          cases r with
          | error e => exact Or.inl (Inside.error hi)
          | ok v =>
            cases st with
            | nil => exact Or.inl (hi.2 _ rfl)
            | cons f st =>
              obtain ⟨name, k⟩ := f
              obtain ⟨h1, h2⟩ := Inside.value hi
              cases hw : wd i with
              | none => exact h1
              | some d =>
                cases name with
                | none => exact h1
                | some n =>
                  obtain ⟨h3, h4⟩ := h2 n rfl
                  exact ⟨h3, h4, Nat.zero_le _, by simp [Disk.set], h1⟩
        | draw k =>
          have hp := Inside.proper hi
          exact Inside.mono hi ⟨hp.1 _, hp.2 _⟩ fun r hr => ⟨_, hr⟩
        | call name body k =>
          have hp := Inside.proper hi
          have henter : Inside S Val body ((name, k) :: st) (p i) := ⟨hp.body, body, fun _ h => h, hi⟩
          cases hw : wd i with
          | none => exact henter
          | some d =>
            cases name with
            | none => exact henter
            | some n =>
              simp only
              cases hc : σ.disk (filePath d n) with
              | none => exact henter
              | some c =>
                simp only
                have hS : S n := hp.1.1 n rfl
                -- what can be read is right
                have hgood : (∀ v, F.dec c = some v → Val n v) ∧ (full → F.dec c ≠ none) := by
                  by_cases hwr : ∀ j, ¬ WritesTo σ j (filePath d n)
                  · exact hd d n c hS hc hwr
                  · obtain ⟨j, hwj⟩ := not_forall_not.1 hwr
                    constructor
                    · obtain ⟨d', n', v, m, k', st', h1, h2⟩ := hwj
                      obtain ⟨rfl, rfl⟩ := filePath_inj h2
                      have h3 := hj j
                      rw [h1] at h3
                      obtain ⟨-, h4, h5, h6, -⟩ := h3
                      rw [hc] at h6
                      cases h6
                      intro u hu
                      rcases Nat.lt_or_ge m (F.enc v).length with hm | hm
                      · rw [hF.short v m hm] at hu; cases hu
                      · rw [List.take_of_length_le hm, hF.whole] at hu
                        cases hu
                        exact h4
                    · intro hf
                      exact absurd hwj (hrd hf j _ ⟨d, n, body, k, st, hw, hs, rfl⟩)
                cases hdec : F.dec c with
                | some v =>
                  have hv := hgood.1 v hdec
                  have := ((hp.2.1 n rfl hS).2 v).1 hv
                  exact hi.mono (hp.cont v) fun r hr => Or.inr ⟨v, this, hr⟩
                | none => exact Or.inr ⟨fun hf => hgood.2 hf hdec, rfl⟩
      | writing d n v m k st =>
        rw [hs] at hi
        obtain ⟨h1, h2, h3, h4, h5⟩ := hi
        simp only
        cases hb : (F.enc v)[m]? with
        | none => exact h5
        | some b =>
          refine ⟨h1, h2, ?_, ?_, h5⟩
          · obtain ⟨hm, -⟩ := List.getElem?_eq_some_iff.1 hb
            omega
          · simp only [Disk.set, if_true, h4, Option.getD_some, Option.some.injEq]
            exact writeAt_take _ _ hb
    · have hi' := hj i
      rw [hother i hi]
      cases hs : (σ.job i).state with
      | done r => rw [hs] at hi'; exact hi'
      | run q st => rw [hs] at hi'; exact hi'
      | writing d n v m k st =>
        rw [hs] at hi'
        obtain ⟨h1, h2, h3, h4, h5⟩ := hi'
        refine ⟨h1, h2, h3, ?_, h5⟩
        rw [hsame, h4]
        intro hwa
        have hwi : WritesTo (σ.step F wd a) i (filePath d n) := ⟨d, n, v, m, k, st, by rw [hother i hi]; exact hs, rfl⟩
        exact hi (hex i a _ hwi hwa)
  · intro d n c hS hc hno
    rw [hsame _ (hno a)] at hc
    by_cases hwr : ∀ j, ¬ WritesTo σ j (filePath d n)
    · exact hd d n c hS hc hwr
    · obtain ⟨j, hwj⟩ := not_forall_not.1 hwr
      have hja : j = a := by
        by_contra hne
        obtain ⟨d', n', v, m, k, st, h1, h2⟩ := hwj
        exact hno j ⟨d', n', v, m, k, st, by rw [hother j hne]; exact h1, h2⟩
      subst hja
      obtain ⟨d', n', v, m, k, st, h1, h2⟩ := hwj
      obtain ⟨rfl, rfl⟩ := filePath_inj h2
      have h3 := hj j
      rw [h1] at h3
      obtain ⟨-, h4, h5, h6, -⟩ := h3
      have hend : (F.enc v)[m]? = none := by
        by_contra hne
        obtain ⟨b, hb⟩ := Option.ne_none_iff_exists'.1 hne
        refine hno j ⟨d, n, v, m + 1, k, st, ?_, rfl⟩
        rw [hself]
        simp [Job.step, h1, hb]
      rw [List.getElem?_eq_none_iff] at hend
      rw [hc] at h6
      cases h6
      rw [List.take_of_length_le hend, hF.whole]
      exact ⟨fun u hu => by cases hu; exact h4, fun _ => by simp⟩

theorem jobsInv_run {F : Pickle V B} (hF : PickleOK F) {full : Prop} {p : ι → Prog V} {wd : ι → Option Path}
    (sched : List ι) {σ : Jobs ι V B} (h : JobsInv S Val F full p σ) (hex : NoDoubleWrite F wd sched σ)
    (hrd : full → NoReadDuringWrite F wd sched σ) : JobsInv S Val F full p (σ.run F wd sched) := by
  induction sched generalizing σ with
  | nil => exact h
  | cons a as ih =>
    refine ih (jobsInv_step hF a h ?_ fun hf => (hrd hf).1) hex.2 fun hf => (hrd hf).2
    cases as with
    | nil => exact hex.2
    | cons b bs => exact hex.2.1

end inv

/-! ### one job alone -/

theorem alone_add (F : Pickle V B) (wd : Option Path) (m n : Nat) (c : Disk B × Job V) :
    alone F wd (m + n) c = alone F wd n (alone F wd m c) := by
  induction m generalizing c with
  | zero => simp [alone]
  | succ m ih => rw [Nat.add_right_comm]; exact ih _

theorem Disk.set_set (f : Disk B) (q : Path) (c c' : List B) : (f.set q c).set q c' = f.set q c' := by
  funext q'
  unfold Disk.set
  split <;> rfl

/-- writing the rest of a file -/
theorem alone_write (F : Pickle V B) (wd : Option Path) {d : Path} {n : Name} {v : V} {k : V → Prog V}
    {st : List (Option Name × (V → Prog V))} (f : Disk B) (sd : Nat → Nat) (ps : Nat) (m : Nat) :
    ∀ i, i + m = (F.enc v).length →
    alone F wd (m + 1) (f.set (filePath d n) ((F.enc v).take i), ⟨.writing d n v i k st, sd, ps⟩) =
      (f.set (filePath d n) (F.enc v), ⟨.run (k v) st, sd, ps⟩) := by
  induction m with
  | zero =>
    intro i hi
    have hn : (F.enc v)[i]? = none := List.getElem?_eq_none_iff.2 (by omega)
    simp only [alone, Job.step, hn]
    rw [List.take_of_length_le (by omega)]
  | succ m ih =>
    intro i hi
    have hb : (F.enc v)[i]? = some ((F.enc v)[i]'(by omega)) := List.getElem?_eq_getElem _
    rw [alone]
    simp only [Job.step, hb]
    have : ((f.set (filePath d n) ((F.enc v).take i)) (filePath d n)).getD [] = (F.enc v).take i := by simp [Disk.set]
    rw [this, Disk.set_set, writeAt_take _ _ hb]
    exact ih (i + 1) (by omega)

/-- a job alone does what the sequential model says -/
theorem alone_run {F : Pickle V B} (hF : PickleOK F) (wd : Option Path) (p : Prog V) :
    ∀ (w : World V) (disk : Disk B) (st : List (Option Name × (V → Prog V))), SameFiles F wd w.fs disk →
    ∃ m disk', SameFiles F wd (p.run wd w).2.fs disk' ∧ (p.run wd w).2.seed = w.seed ∧
      match (p.run wd w).1 with
      | .ok v => alone F wd m (disk, ⟨.run p st, w.seed, w.pos⟩) =
          (disk', ⟨.run (.ret (.ok v)) st, w.seed, (p.run wd w).2.pos⟩)
      | .error e => ∃ ps, alone F wd m (disk, ⟨.run p st, w.seed, w.pos⟩) = (disk', ⟨.done (.error e), w.seed, ps⟩) := by
  induction p with
  | ret r =>
    intro w disk st h
    cases r with
    | error e => exact ⟨1, disk, h, rfl, w.pos, rfl⟩
    | ok v => exact ⟨0, disk, h, rfl, rfl⟩
  | draw k ih =>
    intro w disk st h
    obtain ⟨m, disk', h1, h2, h3⟩ := ih (w.seed w.pos) { w with pos := w.pos + 1 } disk st h
    exact ⟨m + 1, disk', h1, h2, h3⟩
  | call name body k ihb ihk =>
    intro w disk st h
    -- computing the value, saving it and going on
    have compute : load wd name w = .ok none →
        (Job.step F wd disk ⟨.run (.call name body k) st, w.seed, w.pos⟩ =
          (disk, ⟨.run body ((name, k) :: st), w.seed, w.pos⟩)) →
        ∃ m disk', SameFiles F wd ((Prog.call name body k).run wd w).2.fs disk' ∧
          ((Prog.call name body k).run wd w).2.seed = w.seed ∧
          match ((Prog.call name body k).run wd w).1 with
          | .ok v => alone F wd m (disk, ⟨.run (.call name body k) st, w.seed, w.pos⟩) =
              (disk', ⟨.run (.ret (.ok v)) st, w.seed, ((Prog.call name body k).run wd w).2.pos⟩)
          | .error e => ∃ ps, alone F wd m (disk, ⟨.run (.call name body k) st, w.seed, w.pos⟩) =
              (disk', ⟨.done (.error e), w.seed, ps⟩) := by
      intro hl hstep
      obtain ⟨m, disk1, b1, b2, b3⟩ := ihb w disk ((name, k) :: st) h
      simp only [Prog.run, hl]
      rcases hr : body.run wd w with ⟨r, w1⟩
      rw [hr] at b1 b2 b3
      cases r with
      | error e =>
        obtain ⟨ps, b3⟩ := b3
        exact ⟨m + 1, disk1, b1, b2, ps, by rw [alone, hstep]; exact b3⟩
      | ok v =>
        simp only at b1 b2 b3 ⊢
        have hbody : alone F wd (m + 1) (disk, ⟨.run (.call name body k) st, w.seed, w.pos⟩) =
            (disk1, ⟨.run (.ret (.ok v)) ((name, k) :: st), w.seed, w1.pos⟩) := by
          rw [alone, hstep]; exact b3
        cases hwd : wd with
        | none =>
          subst hwd
          have hs : save none name v w1 = (.ok (), w1) := save_none name v w1
          rw [hs]
          obtain ⟨m', disk', k1, k2, k3⟩ := ihk v w1 disk1 st b1
          refine ⟨m + 1 + 1 + m', disk', k1, k2.trans b2, ?_⟩
          have hgo : alone F none (m + 1 + 1) (disk, ⟨.run (.call name body k) st, w.seed, w.pos⟩) =
              (disk1, ⟨.run (k v) st, w1.seed, w1.pos⟩) := by
            rw [alone_add _ _ (m + 1) 1, hbody, b2]
            rfl
          rw [b2] at hgo k3
          simp only at k3 ⊢
          rw [alone_add, hgo]
          exact k3
        | some d =>
          subst hwd
          cases hname : name with
          | none =>
            subst hname
            have hs : save (some d) none v w1 = (.ok (), w1) := rfl
            rw [hs]
            obtain ⟨m', disk', k1, k2, k3⟩ := ihk v w1 disk1 st b1
            refine ⟨m + 1 + 1 + m', disk', k1, k2.trans b2, ?_⟩
            have hgo : alone F (some d) (m + 1 + 1) (disk, ⟨.run (.call none body k) st, w.seed, w.pos⟩) =
                (disk1, ⟨.run (k v) st, w1.seed, w1.pos⟩) := by
              rw [alone_add _ _ (m + 1) 1, hbody, b2]
              rfl
            rw [b2] at hgo k3
            simp only at k3 ⊢
            rw [alone_add, hgo]
            exact k3
          | some n =>
            subst hname
            obtain ⟨hdir, hfiles⟩ := b1 d rfl
            rcases save_cases (some d) (some n) v w1 with ⟨-, h0 | h0⟩ | ⟨e, he⟩ | ⟨d', n', hd', hn', -, hs⟩
            · cases h0
            · cases h0
            · exfalso
              simp only [save, hdir] at he
              rcases hfiles n with ⟨g1, -⟩ | ⟨u, c, g1, -, -⟩ | ⟨c, g1, -, -⟩ <;> simp [g1] at he
            · cases hd'
              cases hn'
              rw [hs]
              simp only
              set w2 : World V := { w1 with
                fs := w1.fs.set (filePath d n) (some (.file (.full v))),
                trace := w1.trace ++ [w1.fs.set (filePath d n) (some (.file .torn)),
                  w1.fs.set (filePath d n) (some (.file (.full v)))] } with hw2
              have hsame : SameFiles F (some d) w2.fs (disk1.set (filePath d n) (F.enc v)) := by
                intro d0 hd0
                cases hd0
                refine ⟨?_, fun n' => ?_⟩
                · simp only [hw2, FS.set]
                  rw [if_neg (fun h => filePath_ne d n h.symm), hdir]
                · by_cases hq : filePath d n' = filePath d n
                  · right; left
                    refine ⟨v, F.enc v, ?_, ?_, hF.whole v⟩
                    · simp [hw2, FS.set, hq]
                    · simp [Disk.set, hq]
                  · simp only [hw2, FS.set, Disk.set, if_neg hq]
                    exact hfiles n'
              obtain ⟨m', disk', k1, k2, k3⟩ := ihk v w2 _ st hsame
              refine ⟨m + 1 + 1 + ((F.enc v).length + 1) + m', disk', k1, k2.trans b2, ?_⟩
              have hgo : alone F (some d) (m + 1 + 1 + ((F.enc v).length + 1))
                  (disk, ⟨.run (.call (some n) body k) st, w.seed, w.pos⟩) =
                  (disk1.set (filePath d n) (F.enc v), ⟨.run (k v) st, w.seed, w1.pos⟩) := by
                rw [alone_add _ _ (m + 1 + 1), alone_add _ _ (m + 1) 1, hbody]
                have hopen : alone F (some d) 1 (disk1, ⟨.run (.ret (.ok v)) ((some n, k) :: st), w.seed, w1.pos⟩) =
                    (disk1.set (filePath d n) ((F.enc v).take 0), ⟨.writing d n v 0 k st, w.seed, w1.pos⟩) := rfl
                rw [hopen]
                exact alone_write F (some d) disk1 w.seed w1.pos (F.enc v).length 0 (by omega)
              have hs2 : w2.seed = w.seed := b2
              rw [hs2] at k3
              have hp2 : w2.pos = w1.pos := rfl
              rw [hp2] at k3
              rw [alone_add, hgo]
              exact k3
    cases hwd : wd with
    | none =>
      subst hwd
      exact compute (load_none name w) rfl
    | some d =>
      subst hwd
      cases hname : name with
      | none => subst hname; exact compute rfl rfl
      | some n =>
        subst hname
        rcases (h d rfl).2 n with ⟨g1, g2⟩ | ⟨v, c, g1, g2, g3⟩ | ⟨c, g1, g2, g3⟩
        · exact compute (by simp [load, g1]) (by simp [Job.step, g2])
        · have hl : load (some d) (some n) w = .ok (some v) := by simp [load, g1]
          have hstep : Job.step F (some d) disk ⟨.run (.call (some n) body k) st, w.seed, w.pos⟩ =
              (disk, ⟨.run (k v) st, w.seed, w.pos⟩) := by simp [Job.step, g2, g3]
          obtain ⟨m, disk', k1, k2, k3⟩ := ihk v w disk st h
          simp only [Prog.run, hl]
          refine ⟨m + 1, disk', k1, k2, ?_⟩
          rw [alone, hstep]
          exact k3
        · have hl : load (some d) (some n) w = .error .eof := by simp [load, g1]
          simp only [Prog.run, hl]
          exact ⟨1, disk, h, trivial, w.pos, by simp [alone, Job.step, g2, g3]⟩

end Model
