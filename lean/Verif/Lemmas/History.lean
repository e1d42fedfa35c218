import Verif.Lemmas.Api
import Verif.Spec.History
import Mathlib.Data.List.Infix

/-! Helper lemmas about histories of calls. -/

namespace Model
open Np Spec

variable {X V A : Type}

/-! ### well-formed file systems -/

theorem wf_below {fs : FS V} (h : WellFormed fs) {d : Path} (hd : fs d = none) (q : Path) (hq : d <+: q) :
    fs q = none := by
  obtain ⟨t, rfl⟩ := hq
  induction t using List.reverseRecOn with
  | nil => simpa using hd
  | append_singleton t x ih =>
    by_contra hne
    rw [← List.append_assoc] at hne
    rw [h.2 _ _ hne] at ih
    cases ih

theorem wf_set_file {fs : FS V} (h : WellFormed fs) {d : Path} {n : Name} (hd : fs d = some .dir)
    (hf : fs (filePath d n) ≠ some .dir) (c : Content V) : WellFormed (fs.set (filePath d n) (some (.file c))) := by
  constructor
  · unfold FS.set
    rw [if_neg (by simp [filePath])]
    exact h.1
  · intro q x hq
    unfold FS.set at hq ⊢
    have hparent : fs q = some .dir := by
      split at hq
      · rename_i heq
        have := (List.append_inj' heq rfl).1
        rw [this]; exact hd
      · exact h.2 q x hq
    rw [if_neg]
    · exact hparent
    · rintro rfl
      exact hf hparent

theorem wf_set_dir {fs : FS V} (h : WellFormed fs) {d : Path} {x : List Char} (hd : fs d = some .dir) :
    WellFormed (fs.set (d ++ [x]) (some .dir)) := by
  constructor
  · unfold FS.set
    rw [if_neg (by simp)]
    exact h.1
  · intro q y hq
    unfold FS.set at hq ⊢
    split
    · rfl
    · split at hq
      · rename_i heq
        have := (List.append_inj' heq rfl).1
        rw [this]; exact hd
      · exact h.2 q y hq

theorem wf_removeTree {fs : FS V} (h : WellFormed fs) {d : Path} (hd : d ≠ []) : WellFormed (removeTree fs d) := by
  constructor
  · unfold removeTree
    rw [if_neg (by simpa using hd)]
    exact h.1
  · intro q x hq
    unfold removeTree at hq ⊢
    split at hq
    · exact absurd rfl hq
    · rename_i hn
      rw [if_neg]
      · exact h.2 q x hq
      · intro hp
        exact hn (hp.trans (List.prefix_append q [x]))

theorem wf_makeDirs (ps : List Path) (p0 : Path) (hc : List.IsChain (fun p q : Path => ∃ x, q = p ++ [x]) (p0 :: ps))
    (w : World V) (h0 : w.fs p0 = some .dir) (h : WellFormed w.fs) :
    WellFormed (makeDirs ps w).2.fs ∧
      ((∀ fs ∈ w.trace, WellFormed fs) → ∀ fs ∈ (makeDirs ps w).2.trace, WellFormed fs) := by
  induction ps generalizing p0 w with
  | nil => exact ⟨h, id⟩
  | cons p ps ih =>
    rw [List.isChain_cons_cons] at hc
    obtain ⟨⟨x, hx⟩, hc⟩ := hc
    simp only [makeDirs]
    split
    · rename_i hp
      exact ih p hc w hp h
    · exact ⟨h, id⟩
    · have hw := wf_set_dir h (x := x) h0
      rw [← hx] at hw
      have := ih p hc (w.eff (w.fs.set p (some .dir))) (by simp [World.eff, FS.set]) hw
      refine ⟨this.1, fun ht => this.2 ?_⟩
      · intro fs hfs
        simp only [World.eff, List.mem_append, List.mem_singleton] at hfs
        rcases hfs with hfs | rfl
        · exact ht fs hfs
        · exact hw

theorem chain_inits (d : Path) : List.IsChain (fun p q : Path => ∃ x, q = p ++ [x]) d.inits := by
  induction d with
  | nil => simp
  | cons a t ih =>
    rw [List.inits_cons]
    cases ht : t.inits with
    | nil => simp
    | cons b l =>
      have hb : b = [] := by
        cases t <;> simp at ht <;> exact ht.1
      rw [List.map_cons, List.isChain_cons_cons]
      refine ⟨⟨a, by simp [hb]⟩, ?_⟩
      rw [← List.map_cons (f := fun t => a :: t), ← ht, List.isChain_map]
      exact ih.imp fun p q ⟨x, hx⟩ => ⟨x, by rw [hx]; rfl⟩

theorem chain_ancestors (d : Path) : List.IsChain (fun p q : Path => ∃ x, q = p ++ [x]) ([] :: ancestors d) := by
  have := chain_inits d
  unfold ancestors
  cases d with
  | nil => simp
  | cons a t =>
    rw [List.inits_cons] at this ⊢
    exact this

theorem wf_prepareDir {mids : FS V → Path → List (FS V)} (hm : Deletion mids) {scratch : Bool} {d : Path}
    (hd : d ≠ []) (w : World V) (h : WellFormed w.fs) :
    WellFormed (prepareDir mids scratch d w).2.fs ∧
      ((∀ fs ∈ w.trace, WellFormed fs) → ∀ fs ∈ (prepareDir mids scratch d w).2.trace, WellFormed fs) := by
  unfold prepareDir
  split
  · split
    · have hr := wf_removeTree h hd
      unfold rmTree
      split
      · rename_i w1 heq
        split at heq
        · cases heq
        · cases heq; exact ⟨h, id⟩
        · cases heq; exact ⟨h, id⟩
      · rename_i w1 heq
        split at heq
        · simp only [Prod.mk.injEq] at heq
          obtain ⟨-, rfl⟩ := heq
          have := wf_makeDirs _ [] (chain_ancestors d) { w with fs := removeTree w.fs d, trace := w.trace ++ mids w.fs d ++ [removeTree w.fs d] } hr.1 hr
          refine ⟨this.1, fun ht => this.2 ?_⟩
          intro fs hfs
          simp only [List.append_assoc, List.mem_append, List.mem_singleton] at hfs
          rcases hfs with hfs | hfs | rfl
          · exact ht fs hfs
          · exact hm.wf _ _ _ h hfs
          · exact hr
        · cases heq
        · cases heq
    · exact ⟨h, id⟩
  · exact wf_makeDirs _ [] (chain_ancestors d) w h.1 h

theorem wf_save (wd : Option Path) (name : Option Name) (v : V) (w : World V) (h : WellFormed w.fs) :
    WellFormed (save wd name v w).2.fs ∧
      ((∀ fs ∈ w.trace, WellFormed fs) → ∀ fs ∈ (save wd name v w).2.trace, WellFormed fs) := by
  unfold save
  split
  · rename_i d n
    split
    · rename_i hd
      split
      · exact ⟨h, id⟩
      · rename_i hne
        have h1 := wf_set_file (c := (.torn : Content V)) h hd (fun hh => hne hh)
        have h2 := wf_set_file (c := .full v) h1 (d := d) (n := n)
          (by unfold FS.set; rw [if_neg fun hh => filePath_ne d n hh.symm]; exact hd) (by simp [FS.set])
        refine ⟨h2, ?_⟩
        intro ht fs hfs
        simp only [World.eff, List.append_assoc, List.mem_append, List.mem_singleton] at hfs
        rcases hfs with hfs | rfl | rfl
        · exact ht fs hfs
        · exact h1
        · exact h2
    · exact ⟨h, id⟩
  · exact ⟨h, id⟩

theorem wf_run (wd : Option Path) (p : Prog V) (w : World V) (h : WellFormed w.fs) :
    WellFormed (p.run wd w).2.fs ∧
      ((∀ fs ∈ w.trace, WellFormed fs) → ∀ fs ∈ (p.run wd w).2.trace, WellFormed fs) := by
  induction p generalizing w with
  | ret r => exact ⟨h, id⟩
  | draw k ih => exact ih _ { w with pos := w.pos + 1 } h
  | call name body k ihb ihk =>
    simp only [Prog.run]
    split
    · exact ⟨h, id⟩
    · exact ihk _ w h
    · have hb := ihb w h
      split
      · rename_i e w1 hr
        rw [hr] at hb; exact hb
      · rename_i v w1 hr
        rw [hr] at hb
        have hs := wf_save wd name v w1 hb.1
        split
        · rename_i e w2 hr2
          rw [hr2] at hs; exact ⟨hs.1, fun ht => hs.2 (hb.2 ht)⟩
        · rename_i u w2 hr2
          rw [hr2] at hs
          have hk := ihk v w2 hs.1
          exact ⟨hk.1, fun ht => hk.2 (hs.2 (hb.2 ht))⟩

theorem wf_validateSaving {mids : FS V → Path → List (FS V)} (hm : Deletion mids) {dir : PyDir} (hd : DirOk dir)
    (s : Bool) (w : World V) (h : WellFormed w.fs) :
    WellFormed (validateSaving mids dir s w).2.fs ∧
      ((∀ fs ∈ w.trace, WellFormed fs) → ∀ fs ∈ (validateSaving mids dir s w).2.trace, WellFormed fs) := by
  cases dir with
  | none => exact ⟨h, id⟩
  | other => exact ⟨h, id⟩
  | path d => exact wf_prepareDir hm hd w h

theorem wf_validate (P : Prims X V A) {mids : FS V → Path → List (FS V)} (hm : Deletion mids) (o : Obj X)
    (hd : DirOk o.dir) (w : World V) (h : WellFormed w.fs) :
    WellFormed (validate P mids o w).2.2.fs ∧
      ((∀ fs ∈ w.trace, WellFormed fs) → ∀ fs ∈ (validate P mids o w).2.2.trace, WellFormed fs) := by
  obtain ⟨-, -, -, -, -, hw⟩ := validate_any P mids o w
  rcases hw with hw | ⟨s, hw⟩
  · rw [hw]; exact ⟨h, id⟩
  · rw [hw]; exact wf_validateSaving hm hd s w h

/-- with `start_from_scratch=True`, or if it did not exist, the working directory is empty after validation -/
theorem prepareDir_empty {mids : FS V → Path → List (FS V)} {scratch : Bool} {d : Path} (hd : d ≠ []) {w w' : World V}
    (hw : WellFormed w.fs) (h : prepareDir mids scratch d w = (.ok (), w')) (hs : scratch = true ∨ w.fs d = none) :
    w'.fs d = some .dir ∧ ∀ q, d <+: q → q ≠ d → w'.fs q = none := by
  rcases prepareDir_ok hd h with h1 | ⟨h1, h2, h3⟩
  · rcases hs with hs | hs
    · exact h1 hs
    · unfold prepareDir at h
      rw [if_neg (by simp [hs])] at h
      have hok := makeDirs_ok (ancestors d) w (by rw [h])
      rw [h] at hok
      refine ⟨hok d (self_mem_ancestors hd), fun q hq hne => ?_⟩
      have hf := (makeDirs_frame (ancestors d) w q (by
        intro hmem
        exact hne ((mem_ancestors hmem).eq_of_length (le_antisymm (mem_ancestors hmem).length_le hq.length_le)))).1
      rw [h] at hf
      rw [hf]
      exact wf_below hw hs q hq
  · refine ⟨h2, fun q hq hne => ?_⟩
    rw [h3]
    · exact wf_below hw h1 q hq
    · intro hmem
      exact hne ((mem_ancestors hmem).eq_of_length (le_antisymm (mem_ancestors hmem).length_le hq.length_le))

theorem cleanGood_empty {S : Name → Prop} {Val : Name → V → Prop} {d : Path} {fs : FS V} (h1 : fs d = some .dir)
    (h2 : ∀ q, d <+: q → q ≠ d → fs q = none) : CleanGood S Val d fs :=
  ⟨h1, fun n => Or.inl (h2 _ (List.prefix_append _ _) (filePath_ne d n))⟩

/-! ### one verifier, always starting from scratch -/

section scratch
variable (C : Cls) (I : ArgInfo A) (P : Prims X V A) {mids : FS V → Path → List (FS V)}

/-- what holds between calls -/
structure Fresh (o : Obj X) (w : World V) : Prop where
  scratch : o.scratch = some true
  dir : DirOk o.dir
  wf : WellFormed w.fs
  good : ∀ d, o.wd = some d → CleanGood (fun _ => True) (SVal C I P o.ext o.avg) d w.fs

theorem wd_eq {o : Obj X} {d : Path} (h : o.wd = some d) : o.dir = .path d := by
  unfold Obj.wd at h
  split at h
  · rename_i d' hd
    cases h; exact hd
  · cases h

theorem fresh_of_validate (hm : Deletion mids) {o o' : Obj X} {w w' : World V} (hs : o.scratch = some true)
    (hd : DirOk o.dir) (hw : WellFormed w.fs) (h : validate P mids o w = (.ok (), o', w')) (x : X) :
    Fresh C I P { o' with ext := x } w' := by
  obtain ⟨-, h2, h3, h4, h5, -, -, -, s, hs', hv⟩ := validate_ok h
  rw [hs] at hs'
  cases hs'
  have hd' : DirOk o'.dir := by rw [h4]; exact hd
  refine ⟨by rw [← hs, ← h5], hd', ?_, ?_⟩
  · have := (wf_validateSaving hm hd true w hw).1
    rw [hv] at this
    exact this
  · intro d hwd
    have hdir : o.dir = .path d := by
      rw [← h4]; exact wd_eq hwd
    rw [hdir] at hv hd
    obtain ⟨e1, e2⟩ := prepareDir_empty hd hw hv (Or.inl rfl)
    exact cleanGood_empty e1 e2

theorem fresh_construct (hm : Deletion mids) {oi o : Obj X} {w w' : World V} (hs : oi.scratch = some true)
    (hd : DirOk oi.dir) (hw : WellFormed w.fs) (h : construct P mids oi w = (.ok o, w')) : Fresh C I P o w' := by
  unfold construct at h
  split at h
  · cases h
  · rename_i u o1 w1 hv
    split at h
    · cases h
    · rename_i x hx
      simp only [Prod.mk.injEq, Except.ok.injEq] at h
      obtain ⟨rfl, rfl⟩ := h
      exact fresh_of_validate C I P hm hs hd hw hv x

theorem fresh_step {I : ArgInfo A} (hI : TextOK I) (hm : Deletion mids) (op : Op X A) {o : Obj X} {w : World V} (h : Fresh C I P o w)
    (hop : FromScratch op) (hr : IsMetric op ∨ (step C I P mids op o w).1 = .ok none) :
    Fresh C I P (step C I P mids op o w).2.1 (step C I P mids op o w).2.2 := by
  have aux : ∀ o2 : Obj X, o2.scratch = some true → DirOk o2.dir → (validate P mids o2 w).1 = .ok () →
      Fresh C I P (validate P mids o2 w).2.1 (validate P mids o2 w).2.2 := by
    intro o2 h1 h2 h3
    exact fresh_of_validate C I P hm h1 h2 h.wf (o' := (validate P mids o2 w).2.1)
      (w' := (validate P mids o2 w).2.2) (by rw [← h3]) (validate P mids o2 w).2.1.ext
  have aux2 : ∀ o2 : Obj X, o2.scratch = some true → DirOk o2.dir →
      ((match validate P mids o2 w with
        | (.error e, o1, w1) => ((.error e : Except Err (Option V)), o1, w1)
        | (.ok _, o1, w1) => (.ok none, o1, w1)).1 = .ok none) →
      Fresh C I P (match validate P mids o2 w with
        | (.error e, o1, w1) => ((.error e : Except Err (Option V)), o1, w1)
        | (.ok _, o1, w1) => (.ok none, o1, w1)).2.1 (match validate P mids o2 w with
        | (.error e, o1, w1) => ((.error e : Except Err (Option V)), o1, w1)
        | (.ok _, o1, w1) => (.ok none, o1, w1)).2.2 := by
    intro o2 h1 h2 h3
    have := aux o2 h1 h2
    rcases hv : validate P mids o2 w with ⟨r, o1, w1⟩
    rw [hv] at h3 this
    cases r with
    | error e => cases h3
    | ok u => exact this rfl
  cases op with
  | metric r =>
    have hrun := run_clean (metricProg C I P o.ext o.avg o.boot r) (agree_all hI C P o.ext o.avg o.boot r) w
      (wd := o.wd) h.good
    have hwf' := (wf_run o.wd (metricProg C I P o.ext o.avg o.boot r) w h.wf).1
    simp only [step]
    split
    · rename_i e w1 hrun'
      rw [hrun'] at hrun hwf'
      exact ⟨h.scratch, h.dir, hwf', hrun.2⟩
    · rename_i v w1 hrun'
      rw [hrun'] at hrun hwf'
      exact ⟨h.scratch, h.dir, hwf', hrun.2⟩
  | setAvg a => exact aux2 _ h.scratch h.dir (hr.resolve_left fun h => h)
  | setBoot b => exact aux2 _ h.scratch h.dir (hr.resolve_left fun h => h)
  | setExt g => exact aux2 _ h.scratch h.dir (hr.resolve_left fun h => h)
  | enableSaving d s => exact aux2 _ hop.2 hop.1 (hr.resolve_left fun h => h)
  | disableBoot => exact ⟨h.scratch, h.dir, h.wf, h.good⟩
  | disableSaving => exact ⟨h.scratch, trivial, h.wf, fun d hd => by simp [step, Obj.wd] at hd⟩

theorem fresh_runOps {I : ArgInfo A} (hI : TextOK I) (hm : Deletion mids) (ops : List (Op X A)) {o : Obj X} {w : World V} (h : Fresh C I P o w)
    (hops : ∀ op ∈ ops, FromScratch op) (hr : SettersReturn C I P mids ops o w) :
    Fresh C I P (runOps C I P mids ops o w).1 (runOps C I P mids ops o w).2 := by
  induction ops generalizing o w with
  | nil => exact h
  | cons op ops ih =>
    exact ih (fresh_step C P hI hm op h (hops op (by simp)) hr.1) (fun op' h' => hops op' (by simp [h'])) hr.2

end scratch

/-! ### several sessions on the same data -/

section sessions
variable (C : Cls) (I : ArgInfo A) (P : Prims X V A) {mids : FS V → Path → List (FS V)}

/-- what holds between the calls of a session -/
structure Held (S : Name → Prop) (Val : Name → V → Prop) (A1 : PyAxis → Prop) (x : X) (o : Obj X) (w : World V) :
    Prop where
  ext : o.ext = x
  avg : A1 o.avg
  good : GoodOn S Val (fun _ => True) w.fs
  trace : ∀ fs ∈ w.trace, GoodOn S Val (fun _ => True) fs

variable {S : Name → Prop} {Val : Name → V → Prop} {A0 A1 : PyAxis → Prop} {x : X}

theorem held_step (hm : Deletes mids) (hx : (P.check x).2 = x) (hA01 : ∀ a, A0 a → A1 (validateAxis a).2)
    (hA11 : ∀ a, A1 a → A1 (validateAxis a).2)
    (hA : ∀ avg boot r, A1 avg → Agree S Val (metricProg C I P x avg boot r))
    (op : Op X A) {o : Obj X} {w : World V} (h : Held S Val A1 x o w) (hop : KeepsData A0 op) :
    Held S Val A1 x (step C I P mids op o w).2.1 (step C I P mids op o w).2.2 := by
  have aux : ∀ o2 : Obj X, o2.ext = x → A1 (validateAxis o2.avg).2 →
      Held S Val A1 x (match validate P mids o2 w with
        | (.error e, o1, w1) => ((.error e : Except Err (Option V)), o1, w1)
        | (.ok _, o1, w1) => (.ok none, o1, w1)).2.1 (match validate P mids o2 w with
        | (.error e, o1, w1) => ((.error e : Except Err (Option V)), o1, w1)
        | (.ok _, o1, w1) => (.ok none, o1, w1)).2.2 := by
    intro o2 h1 h2
    obtain ⟨v1, -, -, -, v5, -⟩ := validate_any P mids o2 w
    obtain ⟨g1, g2⟩ := validate_good P hm o2 w h.good h.trace
    rcases hv : validate P mids o2 w with ⟨r, o1, w1⟩
    rw [hv] at v1 v5 g1 g2
    have hext : o1.ext = x := by
      rcases v5 with v5 | v5
      · exact v5.trans h1
      · rw [h1, hx] at v5; exact v5
    have : Held S Val A1 x o1 w1 := ⟨hext, by rw [v1]; exact h2, g1, g2⟩
    cases r <;> exact this
  cases op with
  | metric r =>
    have hrun := run_sound (D := fun _ => True) (wd := o.wd) (fun _ _ => trivial) (metricProg C I P o.ext o.avg o.boot r)
      (by rw [h.ext]; exact hA _ _ _ h.avg) w h.good h.trace
    simp only [step]
    split
    · rename_i e w1 hr
      rw [hr] at hrun
      exact ⟨h.ext, h.avg, hrun.2.1, hrun.2.2⟩
    · rename_i v w1 hr
      rw [hr] at hrun
      exact ⟨h.ext, h.avg, hrun.2.1, hrun.2.2⟩
  | setAvg a => exact aux _ h.ext (hA01 _ hop)
  | setBoot b => exact aux _ h.ext (hA11 _ h.avg)
  | setExt g => exact hop.elim
  | enableSaving d s => exact aux _ h.ext (hA11 _ h.avg)
  | disableBoot => exact ⟨h.ext, h.avg, h.good, h.trace⟩
  | disableSaving => exact ⟨h.ext, h.avg, h.good, h.trace⟩

theorem held_runOps (hm : Deletes mids) (hx : (P.check x).2 = x) (hA01 : ∀ a, A0 a → A1 (validateAxis a).2)
    (hA11 : ∀ a, A1 a → A1 (validateAxis a).2)
    (hA : ∀ avg boot r, A1 avg → Agree S Val (metricProg C I P x avg boot r))
    (ops : List (Op X A)) {o : Obj X} {w : World V} (h : Held S Val A1 x o w) (hops : ∀ op ∈ ops, KeepsData A0 op) :
    Held S Val A1 x (runOps C I P mids ops o w).1 (runOps C I P mids ops o w).2 := by
  induction ops generalizing o w with
  | nil => exact h
  | cons op ops ih =>
    exact ih (held_step C I P hm hx hA01 hA11 hA op h (hops op (by simp))) fun op' h' => hops op' (by simp [h'])

/-- the value of a name for the data `x` given to the constructor -/
def DVal (x : X) (avg : PyAxis) (n : Name) (v : V) : Prop :=
  ∃ x1 x2, P.check x = (.ok (), x1) ∧ P.init x1 = .ok x2 ∧ SVal C I P x2 avg n v

theorem construct_cases {oi : Obj X} {w : World V} :
    (∃ e w', construct P mids oi w = (.error e, w') ∧ w' = (validate P mids oi w).2.2) ∨
    ∃ o, construct P mids oi w = (.ok o, (validate P mids oi w).2.2) ∧ o.avg = (validateAxis oi.avg).2 ∧
      o.boot = oi.boot ∧ o.dir = oi.dir ∧ o.scratch = oi.scratch ∧
      ∃ x1, P.check oi.ext = (.ok (), x1) ∧ P.init x1 = .ok o.ext := by
  unfold construct
  rcases hv : validate P mids oi w with ⟨r, o1, w1⟩
  cases r with
  | error e => exact Or.inl ⟨e, w1, rfl, rfl⟩
  | ok u =>
    obtain ⟨-, h2, h3, h4, h5, h6, h7, -⟩ := validate_ok hv
    simp only
    cases hi : P.init o1.ext with
    | error e => exact Or.inl ⟨e, w1, rfl, rfl⟩
    | ok x =>
      refine Or.inr ⟨_, rfl, h2, h3, h4, h5, o1.ext, ?_, hi⟩
      rw [h6, ← h7]

theorem held_construct (hm : Deletes mids) {avg : PyAxis} (hA01 : ∀ a, A0 a → A1 (validateAxis a).2)
    {oi o : Obj X} {w w' : World V} (hg : GoodOn S (DVal C I P oi.ext avg) (fun _ => True) w.fs)
    (ht : ∀ fs ∈ w.trace, GoodOn S (DVal C I P oi.ext avg) (fun _ => True) fs) (ha : A0 oi.avg)
    (h : construct P mids oi w = (.ok o, w')) : Held S (DVal C I P oi.ext avg) A1 o.ext o w' := by
  obtain ⟨g1, g2⟩ := validate_good P hm oi w hg ht
  rcases construct_cases P (mids := mids) (oi := oi) (w := w) with ⟨e, w1, he, -⟩ | ⟨o1, ho, h1, -⟩
  · rw [he] at h; cases h
  · rw [ho] at h
    simp only [Prod.mk.injEq, Except.ok.injEq] at h
    obtain ⟨rfl, rfl⟩ := h
    exact ⟨rfl, by rw [h1]; exact hA01 _ ha, g1, g2⟩

/-- names mean the same to the verifier as to its data -/
theorem dval_iff {x x1 x2 : X} (h1 : P.check x = (.ok (), x1)) (h2 : P.init x1 = .ok x2) (avg : PyAxis) (n : Name)
    (v : V) : DVal C I P x avg n v ↔ SVal C I P x2 avg n v := by
  constructor
  · rintro ⟨y1, y2, e1, e2, h⟩
    rw [h1] at e1
    cases e1
    rw [h2] at e2
    cases e2
    exact h
  · exact fun h => ⟨x1, x2, h1, h2, h⟩

theorem agree_congr {S : Name → Prop} {Val Val' : Name → V → Prop} (h : ∀ n v, Val n v ↔ Val' n v) (p : Prog V)
    (hp : Agree S Val p) : Agree S Val' p := by
  induction p with
  | ret r => trivial
  | draw k ih => exact fun n => ih n (hp n)
  | call name body k ihb ihk =>
    exact ⟨fun n hn hS => ⟨(hp.1 n hn hS).1, fun v => (h n v).symm.trans ((hp.1 n hn hS).2 v)⟩, ihb hp.2.1,
      fun v => ihk v (hp.2.2 v)⟩

theorem reach_good (hm : Deletes mids) (hx : Settled P x) {avg : PyAxis}
    (hA01 : ∀ a, A0 a → A1 (validateAxis a).2) (hA11 : ∀ a, A1 a → A1 (validateAxis a).2)
    (hA : ∀ y avg' boot r, A1 avg' → Agree S (SVal C I P y avg) (metricProg C I P y avg' boot r)) {fs0 fs : FS V}
    (h0 : NoPickles fs0) (h : Reach C I P mids x (fun o => A0 o.avg) (KeepsData A0) fs0 fs) :
    GoodOn S (DVal C I P x avg) (fun _ => True) fs := by
  induction h with
  | start => intro d _ n v _ hv; rw [h0] at hv; cases hv
  | session h oi ops seed hxi ha hops hfs ih =>
    rename_i fs1 fs2
    subst hxi
    unfold sessionStates at hfs
    obtain ⟨g1, g2⟩ := validate_good P hm oi (startWorld fs1 seed) ih (by simp [startWorld])
    rcases construct_cases P (mids := mids) (oi := oi) (w := startWorld fs1 seed) with
      ⟨e, w1, he, hw⟩ | ⟨o, ho, h1, h2, h3, h4, x1, hx1, hx2⟩
    · rw [he] at hfs
      simp only [List.mem_cons] at hfs
      rcases hfs with rfl | hfs
      · exact ih
      · rw [hw] at hfs
        exact g2 _ hfs
    · have hh := held_construct C I P hm hA01 (w := startWorld fs1 seed) ih (by simp [startWorld]) ha ho
      rw [ho] at hfs
      simp only [List.mem_cons] at hfs
      rcases hfs with rfl | hfs
      · exact ih
      · exact (held_runOps C I P hm (hx x1 o.ext hx1 hx2) hA01 hA11
          (fun avg' boot r ha' => agree_congr (fun n v => (dval_iff C I P hx1 hx2 avg n v).symm) _
            (hA o.ext avg' boot r ha')) ops hh hops).trace _ hfs

/-- the result of a request, in a session after any others, is correct -/
theorem session_sound (hm : Deletes mids) (hx : Settled P x) {avg : PyAxis}
    (hA01 : ∀ a, A0 a → A1 (validateAxis a).2) (hA11 : ∀ a, A1 a → A1 (validateAxis a).2)
    (hA : ∀ y avg' boot r, A1 avg' → Agree S (SVal C I P y avg) (metricProg C I P y avg' boot r)) {fs0 fs : FS V}
    (h0 : NoPickles fs0) (h : Reach C I P mids x (fun o => A0 o.avg) (KeepsData A0) fs0 fs)
    {oi o : Obj X} {seed : Nat → Nat} {w : World V} (hxi : oi.ext = x) (ha : A0 oi.avg)
    (hc : construct P mids oi (startWorld fs seed) = (.ok o, w)) (ops : List (Op X A))
    (hops : ∀ op ∈ ops, KeepsData A0 op) (r : Req A)
    (hS : ∀ y avg' boot, AllIn S (metricProg C I P y avg' boot r)) (v : Option V)
    (hv : result C I P mids r (runOps C I P mids ops o w).1 (runOps C I P mids ops o w).2 = .ok v) :
    Correct C I P mids r (runOps C I P mids ops o w).1 (.ok v) := by
  subst hxi
  have hg := reach_good C I P hm hx (avg := avg) hA01 hA11 hA h0 h
  have hh := held_construct C I P hm hA01 (w := startWorld fs seed) hg (by simp [startWorld]) ha hc
  rcases construct_cases P (mids := mids) (oi := oi) (w := startWorld fs seed) with
    ⟨e, w1, he, hw⟩ | ⟨o', ho, -, -, -, -, x1, hx1, hx2⟩
  · rw [he] at hc; cases hc
  · rw [ho] at hc
    simp only [Prod.mk.injEq, Except.ok.injEq] at hc
    obtain ⟨rfl, -⟩ := hc
    have hA' : ∀ avg' boot r, A1 avg' → Agree S (DVal C I P oi.ext avg) (metricProg C I P o'.ext avg' boot r) :=
      fun avg' boot r ha' => agree_congr (fun n v => (dval_iff C I P hx1 hx2 avg n v).symm) _ (hA o'.ext avg' boot r ha')
    have hf := held_runOps C I P hm (hx x1 o'.ext hx1 hx2) hA01 hA11 hA' ops hh hops
    revert hv
    generalize (runOps C I P mids ops o' w).1 = o2 at hf ⊢
    generalize (runOps C I P mids ops o' w).2 = w2 at hf ⊢
    intro hv
    have hs := run_sound (D := fun _ => True) (wd := o2.wd) (fun _ _ => trivial)
      (metricProg C I P o2.ext o2.avg o2.boot r) (by rw [hf.ext]; exact hA' _ _ _ hf.avg) w2 hf.good hf.trace
    have hall := hs.1 (hS _ _ _)
    simp only [result, step] at hv
    rcases hr : (metricProg C I P o2.ext o2.avg o2.boot r).run o2.wd w2 with ⟨q, w3⟩
    rw [hr] at hv hall
    cases q with
    | error e => cases hv
    | ok u =>
      simp only [Except.ok.injEq] at hv
      obtain ⟨w4, h4⟩ := (poss_iff _ _).1 (hall u rfl)
      refine ⟨w4, ?_⟩
      simp only [result, step, unsaved, Obj.wd]
      rcases hr4 : (metricProg C I P o2.ext o2.avg o2.boot r).run none w4 with ⟨q4, w5⟩
      rw [hr4] at h4
      simp only at h4
      subst h4
      exact congrArg _ hv


theorem wf_step (hm : Deletion mids) (op : Op X A) {o : Obj X} {w : World V} (hd : DirOk o.dir)
    (h : WellFormed w.fs) (ht : ∀ fs ∈ w.trace, WellFormed fs) (hop : OpDirOk op) :
    DirOk (step C I P mids op o w).2.1.dir ∧ WellFormed (step C I P mids op o w).2.2.fs ∧
      ∀ fs ∈ (step C I P mids op o w).2.2.trace, WellFormed fs := by
  have aux : ∀ o2 : Obj X, DirOk o2.dir →
      DirOk (match validate P mids o2 w with
        | (.error e, o1, w1) => ((.error e : Except Err (Option V)), o1, w1)
        | (.ok _, o1, w1) => (.ok none, o1, w1)).2.1.dir ∧
      WellFormed (match validate P mids o2 w with
        | (.error e, o1, w1) => ((.error e : Except Err (Option V)), o1, w1)
        | (.ok _, o1, w1) => (.ok none, o1, w1)).2.2.fs ∧
      ∀ fs ∈ (match validate P mids o2 w with
        | (.error e, o1, w1) => ((.error e : Except Err (Option V)), o1, w1)
        | (.ok _, o1, w1) => (.ok none, o1, w1)).2.2.trace, WellFormed fs := by
    intro o2 h1
    obtain ⟨-, -, v3, -⟩ := validate_any P mids o2 w
    have hv := wf_validate P hm o2 h1 w h
    rcases hr : validate P mids o2 w with ⟨r, o1, w1⟩
    rw [hr] at v3 hv
    cases r <;> exact ⟨by simp only; rw [v3]; exact h1, hv.1, hv.2 ht⟩
  cases op with
  | metric r =>
    have hr := wf_run o.wd (metricProg C I P o.ext o.avg o.boot r) w h
    simp only [step]
    split
    · rename_i e w1 heq
      rw [heq] at hr; exact ⟨hd, hr.1, hr.2 ht⟩
    · rename_i v w1 heq
      rw [heq] at hr; exact ⟨hd, hr.1, hr.2 ht⟩
  | setAvg a => exact aux _ hd
  | setBoot b => exact aux _ hd
  | setExt g => exact aux _ hd
  | enableSaving d s => exact aux _ hop
  | disableBoot => exact ⟨hd, h, ht⟩
  | disableSaving => exact ⟨trivial, h, ht⟩

theorem wf_runOps (hm : Deletion mids) (ops : List (Op X A)) {o : Obj X} {w : World V} (hd : DirOk o.dir)
    (h : WellFormed w.fs) (ht : ∀ fs ∈ w.trace, WellFormed fs) (hops : ∀ op ∈ ops, OpDirOk op) :
    WellFormed (runOps C I P mids ops o w).2.fs ∧ ∀ fs ∈ (runOps C I P mids ops o w).2.trace, WellFormed fs := by
  induction ops generalizing o w with
  | nil => exact ⟨h, ht⟩
  | cons op ops ih =>
    obtain ⟨h1, h2, h3⟩ := wf_step C I P hm op hd h ht (hops op (by simp))
    exact ih h1 h2 h3 fun op' h' => hops op' (by simp [h'])

theorem reach_wf (hm : Deletion mids) {Start : Obj X → Prop} {Ok : Op X A → Prop}
    (hS : ∀ o, Start o → DirOk o.dir) (hO : ∀ op, Ok op → OpDirOk op) {fs0 fs : FS V} (h0 : WellFormed fs0)
    (h : Reach C I P mids x Start Ok fs0 fs) : WellFormed fs := by
  induction h with
  | start => exact h0
  | session h oi ops seed hxi ha hops hfs ih =>
    rename_i fs1 fs2
    have hv := wf_validate P hm oi (hS _ ha) (startWorld fs1 seed) ih
    have ht := hv.2 (by simp [startWorld])
    unfold sessionStates at hfs
    rcases construct_cases P (mids := mids) (oi := oi) (w := startWorld fs1 seed) with
      ⟨e, w1, he, hw⟩ | ⟨o, ho, -, -, h3, -⟩
    · rw [he] at hfs
      simp only [List.mem_cons] at hfs
      rcases hfs with rfl | hfs
      · exact ih
      · rw [hw] at hfs
        exact ht _ hfs
    · rw [ho] at hfs
      simp only [List.mem_cons] at hfs
      rcases hfs with rfl | hfs
      · exact ih
      · exact (wf_runOps C I P hm ops (by rw [h3]; exact hS _ ha) hv.1 ht fun op h => hO op (hops op h)).2 _ hfs

end sessions

/-! ### sessions that are not interrupted -/

theorem prepareDir_node {mids : FS V → Path → List (FS V)} (scratch : Bool) (d : Path) (w : World V) (q : Path) :
    (prepareDir mids scratch d w).2.fs q = w.fs q ∨ (prepareDir mids scratch d w).2.fs q = none ∨
      (q ∈ ancestors d ∧ (prepareDir mids scratch d w).2.fs q = some .dir) := by
  have mk : ∀ w1 : World V, (w1.fs q = w.fs q ∨ w1.fs q = none) →
      (makeDirs (ancestors d) w1).2.fs q = w.fs q ∨ (makeDirs (ancestors d) w1).2.fs q = none ∨
      (q ∈ ancestors d ∧ (makeDirs (ancestors d) w1).2.fs q = some .dir) := by
    intro w1 h1
    by_cases hq : q ∈ ancestors d
    · cases hn : w1.fs q with
      | none =>
        rcases makeDirs_new (ancestors d) w1 q hn with h | h
        · exact Or.inr (Or.inl h)
        · exact Or.inr (Or.inr ⟨hq, h⟩)
      | some n =>
        have := makeDirs_keeps (ancestors d) w1 q n hn
        rcases h1 with h1 | h1
        · exact Or.inl (by rw [this, ← hn, h1])
        · rw [hn] at h1; cases h1
    · rw [(makeDirs_frame (ancestors d) w1 q hq).1]
      rcases h1 with h1 | h1
      · exact Or.inl h1
      · exact Or.inr (Or.inl h1)
  unfold prepareDir
  split
  · split
    · unfold rmTree
      split
      · rename_i w1 heq
        split at heq
        · cases heq
        · cases heq; exact Or.inl rfl
        · cases heq; exact Or.inl rfl
      · rename_i w1 heq
        split at heq
        · simp only [Prod.mk.injEq] at heq
          obtain ⟨-, rfl⟩ := heq
          apply mk
          simp only [removeTree]
          split
          · exact Or.inr rfl
          · exact Or.inl rfl
        · cases heq
        · cases heq
    · exact Or.inl rfl
  · exact mk w (Or.inl rfl)

section completed
variable (C : Cls) (I : ArgInfo A) (P : Prims X V A) {mids : FS V → Path → List (FS V)}

/-- no damaged files -/
structure CleanFS (S : Name → Prop) (Val : Name → V → Prop) (D : Path → Prop) (fs : FS V) : Prop where
  wf : WellFormed fs
  files : ∀ d n, fs (filePath d n) = none ∨ ∃ v, fs (filePath d n) = some (.file (.full v)) ∧ (S n → Val n v)
  dirs : ∀ d, D d → ∀ c, fs d ≠ some (.file c)

structure Done (S : Name → Prop) (Val : Name → V → Prop) (A1 : PyAxis → Prop) (D : Path → Prop) (x : X) (o : Obj X)
    (w : World V) : Prop where
  ext : o.ext = x
  avg : A1 o.avg
  clean : CleanFS S Val D w.fs
  uses : UsesDir D o.dir
  dir : ∀ d, o.wd = some d → w.fs d = some .dir

variable {S : Name → Prop} {Val : Name → V → Prop} {A0 A1 : PyAxis → Prop} {D : Path → Prop} {x : X}

theorem clean_prepareDir (hm : Deletion mids) (hD : ∀ d, D d → PlainDir d) {s : Bool} {d : Path} (hd : D d)
    {w w' : World V} (h : CleanFS S Val D w.fs) (hv : prepareDir mids s d w = (.ok (), w')) :
    CleanFS S Val D w'.fs ∧ w'.fs d = some .dir := by
  have hwf := (wf_prepareDir hm (scratch := s) (hD d hd).1 w h.wf).1
  have hnode := prepareDir_node (mids := mids) s d w
  rw [hv] at hwf
  simp only [hv] at hnode
  have hdirs : ∀ d', D d' → ∀ c, w'.fs d' ≠ some (.file c) := by
    intro d' hd' c hc
    rcases hnode d' with h1 | h1 | ⟨-, h1⟩
    · rw [h1] at hc; exact h.dirs d' hd' c hc
    · rw [h1] at hc; cases hc
    · rw [h1] at hc; cases hc
  refine ⟨⟨hwf, ?_, hdirs⟩, ?_⟩
  · intro d' n
    rcases hnode (filePath d' n) with h1 | h1 | ⟨h1, -⟩
    · rw [h1]; exact h.files d' n
    · exact Or.inl h1
    · exact absurd rfl ((hD d hd).2 _ h1 d' n)
  · by_cases hc : s = true ∨ w.fs d = none
    · exact (prepareDir_empty (hD d hd).1 h.wf hv hc).1
    · rw [not_or] at hc
      have hsome : (w.fs d).isSome := by
        rw [Option.isSome_iff_ne_none]; exact hc.2
      unfold prepareDir at hv
      rw [if_pos hsome, if_neg hc.1] at hv
      cases hv
      cases hn : w.fs d with
      | none => exact absurd hn hc.2
      | some n =>
        cases n with
        | dir => rfl
        | file c => exact absurd hn (h.dirs d hd c)

theorem done_validate (hm : Deletion mids) (hD : ∀ d, D d → PlainDir d) {o o' : Obj X} {w w' : World V}
    (h : CleanFS S Val D w.fs) (hd : UsesDir D o.dir) (hv : validate P mids o w = (.ok (), o', w')) :
    CleanFS S Val D w'.fs ∧ UsesDir D o'.dir ∧ ∀ d, o'.wd = some d → w'.fs d = some .dir := by
  obtain ⟨-, -, -, h4, -, -, -, -, s, -, hs⟩ := validate_ok hv
  cases hdir : o.dir with
  | none =>
    rw [hdir] at hs h4
    simp only [validateSaving, Prod.mk.injEq, true_and] at hs
    subst hs
    exact ⟨h, by rw [h4]; trivial, fun d hd => by rw [wd_eq hd] at h4; cases h4⟩
  | other => rw [hdir] at hs; simp [validateSaving] at hs
  | path d =>
    rw [hdir] at hs h4 hd
    obtain ⟨c1, c2⟩ := clean_prepareDir hm hD hd h hs
    refine ⟨c1, by rw [h4]; exact hd, fun d' hd' => ?_⟩
    rw [wd_eq hd'] at h4
    cases h4
    exact c2

theorem done_step (hm : Deletion mids) (hD : ∀ d, D d → PlainDir d) (hx : (P.check x).2 = x)
    (hA01 : ∀ a, A0 a → A1 (validateAxis a).2) (hA11 : ∀ a, A1 a → A1 (validateAxis a).2)
    (hA : ∀ avg boot r, A1 avg → Agree S Val (metricProg C I P x avg boot r))
    (op : Op X A) {o : Obj X} {w : World V} (h : Done S Val A1 D x o w) (hop : KeepsData A0 op ∧ OpUsesDir D op)
    (hr : IsMetric op ∨ (step C I P mids op o w).1 = .ok none) :
    Done S Val A1 D x (step C I P mids op o w).2.1 (step C I P mids op o w).2.2 := by
  have aux : ∀ o2 : Obj X, o2.ext = x → A1 (validateAxis o2.avg).2 → UsesDir D o2.dir →
      ((match validate P mids o2 w with
        | (.error e, o1, w1) => ((.error e : Except Err (Option V)), o1, w1)
        | (.ok _, o1, w1) => (.ok none, o1, w1)).1 = .ok none) →
      Done S Val A1 D x (match validate P mids o2 w with
        | (.error e, o1, w1) => ((.error e : Except Err (Option V)), o1, w1)
        | (.ok _, o1, w1) => (.ok none, o1, w1)).2.1 (match validate P mids o2 w with
        | (.error e, o1, w1) => ((.error e : Except Err (Option V)), o1, w1)
        | (.ok _, o1, w1) => (.ok none, o1, w1)).2.2 := by
    intro o2 h1 h2 h3 h4
    rcases hv : validate P mids o2 w with ⟨r, o1, w1⟩
    rw [hv] at h4
    cases r with
    | error e => cases h4
    | ok u =>
      obtain ⟨-, v2, -, -, -, v6, -⟩ := validate_ok hv
      obtain ⟨c1, c2, c3⟩ := done_validate P hm hD h.clean h3 hv
      exact ⟨by rw [v6, h1, hx], by rw [v2]; exact h2, c1, c2, c3⟩
  cases op with
  | metric r =>
    have hcg : ∀ d, o.wd = some d → CleanGood S Val d w.fs := fun d hd => ⟨h.dir d hd, h.clean.files d⟩
    have hrun := run_clean (metricProg C I P o.ext o.avg o.boot r) (by rw [h.ext]; exact hA _ _ _ h.avg) w
      (wd := o.wd) hcg
    have hwf := (wf_run o.wd (metricProg C I P o.ext o.avg o.boot r) w h.clean.wf).1
    have hframe := fun q hq => (run_frame o.wd (metricProg C I P o.ext o.avg o.boot r) w q hq).1
    have hfin : Done S Val A1 D x o ((metricProg C I P o.ext o.avg o.boot r).run o.wd w).2 := by
      have hkeep : ∀ d, D d → ((metricProg C I P o.ext o.avg o.boot r).run o.wd w).2.fs d = w.fs d :=
        fun d hd => hframe d fun e n _ => (hD d hd).2 d (self_mem_ancestors (hD d hd).1) e n
      refine ⟨h.ext, h.avg, ⟨hwf, ?_, ?_⟩, h.uses, ?_⟩
      · intro d n
        by_cases hd : o.wd = some d
        · exact (hrun.2 d hd).2 n
        · rw [hframe]
          · exact h.clean.files d n
          · intro d' n' hd' he
            exact hd (by rw [hd', (filePath_inj he).1])
      · intro d hd c
        rw [hkeep d hd]; exact h.clean.dirs d hd c
      · intro d hd
        have hu := h.uses
        rw [wd_eq hd] at hu
        rw [hkeep d hu]
        exact h.dir d hd
    simp only [step]
    split
    · rename_i e w1 hr
      rw [hr] at hfin
      exact hfin
    · rename_i v w1 hr
      rw [hr] at hfin
      exact hfin
  | setAvg a => exact aux _ h.ext (hA01 _ hop.1) h.uses (hr.resolve_left fun h => h)
  | setBoot b => exact aux _ h.ext (hA11 _ h.avg) h.uses (hr.resolve_left fun h => h)
  | setExt g => exact hop.1.elim
  | enableSaving d s => exact aux _ h.ext (hA11 _ h.avg) hop.2 (hr.resolve_left fun h => h)
  | disableBoot => exact ⟨h.ext, h.avg, h.clean, h.uses, h.dir⟩
  | disableSaving => exact ⟨h.ext, h.avg, h.clean, trivial, fun d hd => by simp [step, Obj.wd] at hd⟩

theorem done_runOps (hm : Deletion mids) (hD : ∀ d, D d → PlainDir d) (hx : (P.check x).2 = x)
    (hA01 : ∀ a, A0 a → A1 (validateAxis a).2) (hA11 : ∀ a, A1 a → A1 (validateAxis a).2)
    (hA : ∀ avg boot r, A1 avg → Agree S Val (metricProg C I P x avg boot r))
    (ops : List (Op X A)) {o : Obj X} {w : World V} (h : Done S Val A1 D x o w)
    (hops : ∀ op ∈ ops, KeepsData A0 op ∧ OpUsesDir D op) (hr : SettersReturn C I P mids ops o w) :
    Done S Val A1 D x (runOps C I P mids ops o w).1 (runOps C I P mids ops o w).2 := by
  induction ops generalizing o w with
  | nil => exact h
  | cons op ops ih =>
    exact ih (done_step C I P hm hD hx hA01 hA11 hA op h (hops op (by simp)) hr.1)
      (fun op' h' => hops op' (by simp [h'])) hr.2

theorem done_construct (hm : Deletion mids) (hD : ∀ d, D d → PlainDir d) {avg : PyAxis}
    (hA01 : ∀ a, A0 a → A1 (validateAxis a).2)
    {oi o : Obj X} {w w' : World V} (hg : CleanFS S (DVal C I P oi.ext avg) D w.fs) (ha : A0 oi.avg)
    (hu : UsesDir D oi.dir)
    (h : construct P mids oi w = (.ok o, w')) : Done S (DVal C I P oi.ext avg) A1 D o.ext o w' := by
  unfold construct at h
  split at h
  · cases h
  · rename_i u o1 w1 hv
    split at h
    · cases h
    · rename_i x hx
      simp only [Prod.mk.injEq, Except.ok.injEq] at h
      obtain ⟨rfl, rfl⟩ := h
      obtain ⟨-, v2, -⟩ := validate_ok hv
      obtain ⟨c1, c2, c3⟩ := done_validate P hm hD hg hu hv
      exact ⟨rfl, by rw [v2]; exact hA01 _ ha, c1, c2, c3⟩

theorem completed_clean (hm : Deletion mids) (hD : ∀ d, D d → PlainDir d) (hx : Settled P x) {avg : PyAxis}
    (hA01 : ∀ a, A0 a → A1 (validateAxis a).2) (hA11 : ∀ a, A1 a → A1 (validateAxis a).2)
    (hA : ∀ y avg' boot r, A1 avg' → Agree S (SVal C I P y avg) (metricProg C I P y avg' boot r)) {fs0 fs : FS V}
    (h0 : CleanFS S (DVal C I P x avg) D fs0) (h : Completed C I P mids x A0 D fs0 fs) :
    CleanFS S (DVal C I P x avg) D fs := by
  induction h with
  | start => exact h0
  | session h oi o w ops seed hxi ha hd hops hc hs ih =>
    subst hxi
    have hh := done_construct C I P hm hD hA01 (w := startWorld _ seed) ih ha hd hc
    rcases construct_cases P (mids := mids) (oi := oi) (w := startWorld _ seed) with
      ⟨e, w1, he, hw⟩ | ⟨o', ho, -, -, -, -, x1, hx1, hx2⟩
    · rw [he] at hc; cases hc
    · rw [ho] at hc
      simp only [Prod.mk.injEq, Except.ok.injEq] at hc
      obtain ⟨rfl, rfl⟩ := hc
      exact (done_runOps C I P hm hD (hx x1 o'.ext hx1 hx2) hA01 hA11
        (fun avg' boot r ha' => agree_congr (fun n v => (dval_iff C I P hx1 hx2 avg n v).symm) _
          (hA o'.ext avg' boot r ha')) ops hh hops hs).clean

/-- results with saving are results without it -/
theorem correct_of_poss {o : Obj X} {w : World V} {r : Req A}
    (h : poss (metricProg C I P o.ext o.avg o.boot r) ((metricProg C I P o.ext o.avg o.boot r).run o.wd w).1) :
    Correct C I P mids r o (result C I P mids r o w) := by
  obtain ⟨w4, h4⟩ := (poss_iff _ _).1 h
  refine ⟨w4, ?_⟩
  simp only [result, step, unsaved, Obj.wd]
  rcases hr4 : (metricProg C I P o.ext o.avg o.boot r).run none w4 with ⟨q4, w5⟩
  rcases hr : (metricProg C I P o.ext o.avg o.boot r).run o.wd w with ⟨q, w3⟩
  rw [hr4, hr] at h4
  simp only at h4
  subst h4
  change _ = (match (metricProg C I P o.ext o.avg o.boot r).run o.wd w with
    | (.error e, w1) => ((.error e : Except Err (Option V)), o, w1)
    | (.ok v, w1) => (.ok (some v), o, w1)).1
  rw [hr]
  cases q4 <;> rfl

theorem completed_correct (hm : Deletion mids) (hD : ∀ d, D d → PlainDir d) (hx : Settled P x) {avg : PyAxis}
    (hA01 : ∀ a, A0 a → A1 (validateAxis a).2) (hA11 : ∀ a, A1 a → A1 (validateAxis a).2)
    (hA : ∀ y avg' boot r, A1 avg' → Agree S (SVal C I P y avg) (metricProg C I P y avg' boot r)) {fs0 fs : FS V}
    (h0 : CleanFS S (DVal C I P x avg) D fs0) (h : Completed C I P mids x A0 D fs0 fs)
    {oi o : Obj X} {seed : Nat → Nat} {w : World V} (hxi : oi.ext = x) (ha : A0 oi.avg) (hu : UsesDir D oi.dir)
    (hc : construct P mids oi (startWorld fs seed) = (.ok o, w)) (ops : List (Op X A))
    (hops : ∀ op ∈ ops, KeepsData A0 op ∧ OpUsesDir D op) (hs : SettersReturn C I P mids ops o w) (r : Req A)
    (hS : ∀ y avg' boot, AllIn S (metricProg C I P y avg' boot r)) :
    Correct C I P mids r (runOps C I P mids ops o w).1
      (result C I P mids r (runOps C I P mids ops o w).1 (runOps C I P mids ops o w).2) := by
  have hcl := completed_clean C I P hm hD hx hA01 hA11 hA h0 h
  subst hxi
  have hh := done_construct C I P hm hD hA01 (w := startWorld _ seed) hcl ha hu hc
  rcases construct_cases P (mids := mids) (oi := oi) (w := startWorld fs seed) with
    ⟨e, w1, he, hw⟩ | ⟨o', ho, -, -, -, -, x1, hx1, hx2⟩
  · rw [he] at hc; cases hc
  · rw [ho] at hc
    simp only [Prod.mk.injEq, Except.ok.injEq] at hc
    obtain ⟨rfl, rfl⟩ := hc
    have hA' : ∀ avg' boot r, A1 avg' → Agree S (DVal C I P oi.ext avg) (metricProg C I P o'.ext avg' boot r) :=
      fun avg' boot r ha' => agree_congr (fun n v => (dval_iff C I P hx1 hx2 avg n v).symm) _ (hA o'.ext avg' boot r ha')
    have hf := done_runOps C I P hm hD (hx x1 o'.ext hx1 hx2) hA01 hA11 hA' ops hh hops hs
    apply correct_of_poss
    exact (run_clean _ (by rw [hf.ext]; exact hA' _ _ _ hf.avg) _ (fun d hd => ⟨hf.dir d hd, hf.clean.files d⟩)).1
      (hS _ _ _)

end completed

end Model
