import Verif.Lemmas.ApiCase

/-!
# Files, names and settings of a verifier: C46, C47, C48, C49, C52, C53, C56, C64, C65
-/

set_option linter.unusedSectionVars false

namespace Props
open Np Model Spec

variable {X V A : Type}

/-! ### C46 -/

/-- anything except `enable_saving` -/
def NotEnable : Op X A → Prop
  | .enableSaving _ _ => False
  | _ => True

theorem validate_none (P : Prims X V A) (mids : FS V → Path → List (FS V)) (o : Obj X) (h : o.dir = .none)
    (w : World V) : (validate P mids o w).2.2 = w ∧ (validate P mids o w).2.1.dir = .none := by
  obtain ⟨-, -, h3, -, -, hw⟩ := validate_any P mids o w
  refine ⟨?_, h3.trans h⟩
  rcases hw with hw | ⟨s, hw⟩
  · exact hw
  · rw [hw, h]; rfl

theorem step_none (C : Cls) (I : ArgInfo A) (P : Prims X V A) (mids : FS V → Path → List (FS V)) (op : Op X A)
    (o : Obj X) (h : o.dir = .none) (hop : NotEnable op) (w : World V) :
    (step C I P mids op o w).2.1.dir = .none ∧ (step C I P mids op o w).2.2.fs = w.fs ∧
      (step C I P mids op o w).2.2.trace = w.trace := by
  have aux : ∀ o2 : Obj X, o2.dir = .none →
      (match validate P mids o2 w with
        | (.error e, o1, w1) => ((.error e : Except Err (Option V)), o1, w1)
        | (.ok _, o1, w1) => (.ok none, o1, w1)).2.1.dir = .none ∧
      (match validate P mids o2 w with
        | (.error e, o1, w1) => ((.error e : Except Err (Option V)), o1, w1)
        | (.ok _, o1, w1) => (.ok none, o1, w1)).2.2.fs = w.fs ∧
      (match validate P mids o2 w with
        | (.error e, o1, w1) => ((.error e : Except Err (Option V)), o1, w1)
        | (.ok _, o1, w1) => (.ok none, o1, w1)).2.2.trace = w.trace := by
    intro o2 h2
    obtain ⟨h3, h4⟩ := validate_none P mids o2 h2 w
    rcases hv : validate P mids o2 w with ⟨r, o1, w1⟩
    rw [hv] at h3 h4
    simp only at h3 h4
    subst h3
    cases r <;> exact ⟨h4, rfl, rfl⟩
  cases op with
  | metric r =>
    have hwd : o.wd = none := by simp [Obj.wd, h]
    obtain ⟨r1, r2, -⟩ := run_none_fs (metricProg C I P o.ext o.avg o.boot r) w
    simp only [step, hwd]
    split
    · rename_i e w1 hr
      rw [hr] at r1 r2; exact ⟨h, r1, r2⟩
    · rename_i v w1 hr
      rw [hr] at r1 r2; exact ⟨h, r1, r2⟩
  | setAvg a => exact aux _ h
  | setBoot b => exact aux _ h
  | setExt g => exact aux _ h
  | enableSaving d s => exact hop.elim
  | disableBoot => exact ⟨h, rfl, rfl⟩
  | disableSaving => exact ⟨rfl, rfl, rfl⟩

/-- While saving is disabled no history of calls changes the file system, not even for a moment. -/
theorem C46_disabled (C : Cls) (I : ArgInfo A) (P : Prims X V A) (mids : FS V → Path → List (FS V))
    (ops : List (Op X A)) (o : Obj X) (h : o.dir = .none) (hops : ∀ op ∈ ops, NotEnable op) (w : World V) :
    (runOps C I P mids ops o w).2.fs = w.fs ∧ (runOps C I P mids ops o w).2.trace = w.trace := by
  induction ops generalizing o w with
  | nil => exact ⟨rfl, rfl⟩
  | cons op ops ih =>
    obtain ⟨h1, h2, h3⟩ := step_none C I P mids op o h (hops op (by simp)) w
    obtain ⟨h4, h5⟩ := ih _ h1 (fun op' h' => hops op' (by simp [h'])) (step C I P mids op o w).2.2
    exact ⟨h4.trans h2, h5.trans h3⟩

/-- While it is enabled, a metric call changes no path except `<working directory>/<name>.pkl`, not even for a
moment. -/
theorem C46_only_pickles (C : Cls) (I : ArgInfo A) (P : Prims X V A) (mids : FS V → Path → List (FS V)) (r : Req A)
    (o : Obj X) (w : World V) (q : Path) (hq : ∀ d n, o.dir = .path d → q ≠ filePath d n) :
    (step C I P mids (.metric r) o w).2.2.fs q = w.fs q ∧
      ∀ fs ∈ (step C I P mids (.metric r) o w).2.2.trace, fs ∈ w.trace ∨ fs q = w.fs q := by
  have hf := run_frame o.wd (metricProg C I P o.ext o.avg o.boot r) w q fun d n hd => hq d n (wd_eq hd)
  simp only [step]
  split
  · rename_i e w1 hr
    rw [hr] at hf; exact hf
  · rename_i v w1 hr
    rw [hr] at hf; exact hf

theorem run_keeps (wd : Option Path) (p : Prog V) (w : World V) (q : Path) (nd : Node V) (h : w.fs q = some nd) :
    (p.run wd w).2.fs q = some nd ∧ ∀ fs ∈ (p.run wd w).2.trace, fs ∈ w.trace ∨ fs q = some nd := by
  induction p generalizing w with
  | ret r => exact ⟨h, fun fs hf => Or.inl hf⟩
  | draw k ih => exact ih _ { w with pos := w.pos + 1 } h
  | call name body k ihb ihk =>
    simp only [Prog.run]
    cases hl : load wd name w with
    | error e => exact ⟨h, fun fs hf => Or.inl hf⟩
    | ok l =>
      cases l with
      | some v => exact ihk v w h
      | none =>
        simp only
        obtain ⟨b1, b2⟩ := ihb w h
        rcases hb : body.run wd w with ⟨r1, w1⟩
        rw [hb] at b1 b2
        cases r1 with
        | error e => exact ⟨b1, b2⟩
        | ok v =>
          simp only
          have hne : ∀ d n, wd = some d → name = some n → q ≠ filePath d n := by
            rintro d n rfl rfl rfl
            simp only [load, h] at hl
            split at hl
            · rename_i hh; cases hh
            · cases hl
            · cases hl
            · cases hl
          rcases save_cases wd name v w1 with ⟨hs, -⟩ | ⟨e, hs⟩ | ⟨d, n, hwd, hnm, -, hs⟩
          · rw [hs]
            obtain ⟨k1, k2⟩ := ihk v w1 b1
            refine ⟨k1, fun fs hf => ?_⟩
            rcases k2 fs hf with h' | h'
            · exact b2 fs h'
            · exact Or.inr h'
          · rw [hs]; exact ⟨b1, b2⟩
          · have hq := hne d n hwd hnm
            have hset : ∀ c : Option (Node V), (w1.fs.set (filePath d n) c) q = some nd := by
              intro c; unfold FS.set; rw [if_neg hq]; exact b1
            rw [hs]
            simp only
            obtain ⟨k1, k2⟩ := ihk v { w1 with
              fs := w1.fs.set (filePath d n) (some (.file (.full v))),
              trace := w1.trace ++ [w1.fs.set (filePath d n) (some (.file .torn)),
                w1.fs.set (filePath d n) (some (.file (.full v)))] } (hset _)
            refine ⟨k1, fun fs hf => ?_⟩
            rcases k2 fs hf with h' | h'
            · simp only [List.mem_append, List.mem_cons, List.not_mem_nil, or_false] at h'
              rcases h' with h' | rfl | rfl
              · exact b2 fs h'
              · exact Or.inr (hset _)
              · exact Or.inr (hset _)
            · exact Or.inr h'

/-- A metric call never overwrites or deletes anything that exists when it is called. -/
theorem C46_no_overwrite (C : Cls) (I : ArgInfo A) (P : Prims X V A) (mids : FS V → Path → List (FS V)) (r : Req A)
    (o : Obj X) (w : World V) (q : Path) (nd : Node V) (h : w.fs q = some nd) :
    (step C I P mids (.metric r) o w).2.2.fs q = some nd ∧
      ∀ fs ∈ (step C I P mids (.metric r) o w).2.2.trace, fs ∈ w.trace ∨ fs q = some nd := by
  have hf := run_keeps o.wd (metricProg C I P o.ext o.avg o.boot r) w q nd h
  simp only [step]
  split
  · rename_i e w1 hr
    rw [hr] at hf; exact hf
  · rename_i v w1 hr
    rw [hr] at hf; exact hf

/-- a verifier on one number -/
def detX1 : DetX ℚ := ⟨⟨[1], [some 1], rfl⟩, ⟨[1], [some 3], rfl⟩⟩

/-- With saving enabled a call does write a file, so the statement above is about something. -/
example : ∃ o w, construct detP noMids ⟨.none, .none, .path dirW, some true, detX1⟩ world0 = (.ok o, w) ∧
    (step .determ intInfo detP noMids (.metric (.slot .error)) o w).2.2.fs (filePath dirW "error".toList) =
      some (.file (.full (.num ⟨[1], [some (-2)], rfl⟩))) := by
  refine ⟨_, _, rfl, ?_⟩
  have : ∀ a b : NDArr (Fl ℚ), a.shape = b.shape → a.data = b.data → a = b := by
    rintro ⟨_, _, _⟩ ⟨_, _, _⟩ h1 h2; simp only at h1 h2; subst h1 h2; rfl
  exact congrArg (fun a => some (Node.file (Content.full (PyVal.num a)))) (this _ _ rfl (by decide +kernel))

/-! ### C47 -/

/-- Two requests use the same file only if they are the same metric with the same printed arguments. -/
theorem C47_no_collision {I : ArgInfo A} (h : Plain I) {s s' : Slot A} {n : Name} (h1 : slotName I s = .ok (some n))
    (h2 : slotName I s' = .ok (some n)) : printed I s = printed I s' :=
  slotName_printed h h1 h2

/-- If different arguments print differently, they are the same request. -/
theorem C47_injective {I : ArgInfo A} (h : TextOK I) {s s' : Slot A} {n : Name} (h1 : slotName I s = .ok (some n))
    (h2 : slotName I s' = .ok (some n)) : s = s' :=
  slotName_inj h h1 h2

/-- also in one directory: different requests use different paths -/
theorem C47_paths {I : ArgInfo A} (h : TextOK I) {s s' : Slot A} (hne : s ≠ s') {n n' : Name}
    (h1 : slotName I s = .ok (some n)) (h2 : slotName I s' = .ok (some n')) (d d' : Path) :
    filePath d n ≠ filePath d' n' := by
  intro e
  obtain ⟨-, rfl⟩ := filePath_inj e
  exact hne (slotName_inj h h1 h2)

example : TextOK intInfo := textOK_int

example : slotName intInfo (.reliability 15 none (some (-3))) = .ok (some "rel_nbins_15_over_None_below_-3".toList) ∧
    slotName intInfo (.brier (some 15) none) = .ok (some "brier_over_15_below_None".toList) := by decide +kernel

/-! ### C48 -/

/-- more than five elements, as `to_name` counts them -/
def Large (I : ArgInfo A) (a : A) : Prop :=
  I.hasLen a = true ∧ ((I.isArr a = true ∧ 5 < I.ravelLen a) ∨ ∃ n, I.len a = some n ∧ 5 < n)

/-- arguments whose length can be asked (everything except zero-dimensional arrays) -/
def Sized (I : ArgInfo A) (a : A) : Prop := I.hasLen a = true → (I.len a).isSome

theorem C48_no_base (I : ArgInfo A) (args : List (List Char × Option A)) : toName I none args = .ok none := rfl

/-- `LITERAL_` names are used as they are, without the prefix, whatever the arguments. -/
theorem C48_literal (I : ArgInfo A) (rest : List Char) (hsp : ' ' ∉ rest) (args : List (List Char × Option A)) :
    toName I (some ("LITERAL_".toList ++ rest)) args = .ok (some rest) := by
  have h : noSpaces ("LITERAL_".toList ++ rest) = "LITERAL_".toList ++ rest := by
    apply noSpaces_self
    intro hm
    rcases List.mem_append.1 hm with hm | hm
    · exact absurd hm (by decide)
    · exact hsp hm
  have h8 : "LITERAL_".toList.length = 8 := by decide
  simp only [toName, h]
  rw [if_pos (by rw [← h8, List.take_left]), ← h8, List.drop_left]

theorem tooLong_large {I : ArgInfo A} {a : A} (h : Large I a) : tooLong I (some a) = .ok true := by
  obtain ⟨h1, h2⟩ := h
  simp only [tooLong, h1, if_true]
  by_cases hc : I.isArr a = true ∧ 5 < I.ravelLen a
  · rw [if_pos hc]
  · rw [if_neg hc]
    rcases h2 with h2 | ⟨n, hn, h5⟩
    · exact absurd h2 hc
    · simp [hn, h5]

theorem tooLong_ok {I : ArgInfo A} {a : Option A} (hs : ∀ b, a = some b → Sized I b) : ∃ t, tooLong I a = .ok t := by
  cases a with
  | none => exact ⟨false, rfl⟩
  | some b =>
    unfold tooLong
    simp only
    split
    · rename_i hl
      split
      · exact ⟨true, rfl⟩
      · have := hs b rfl hl
        cases hb : I.len b with
        | none => rw [hb] at this; cases this
        | some n => exact ⟨_, rfl⟩
    · exact ⟨false, rfl⟩

/-- Nothing is saved if some argument has more than five elements. -/
theorem C48_large (I : ArgInfo A) (base : List Char) (args : List (List Char × Option A))
    (hlit : (noSpaces base).take 8 ≠ "LITERAL_".toList) (hs : ∀ q ∈ args, ∀ a, q.2 = some a → Sized I a)
    (k : List Char) (a : A) (hmem : (k, some a) ∈ args) (h : Large I a) : toName I (some base) args = .ok none := by
  have hp : nameParts I args = .ok none := by
    clear hlit
    induction args with
    | nil => cases hmem
    | cons q args ih =>
      obtain ⟨k', v⟩ := q
      simp only [nameParts]
      obtain ⟨t, ht⟩ := tooLong_ok (I := I) (a := v) fun b hb => hs (k', v) (by simp) b hb
      rw [ht]
      rcases List.mem_cons.1 hmem with he | hmem'
      · simp only [Prod.mk.injEq] at he
        obtain ⟨rfl, rfl⟩ := he
        rw [tooLong_large h] at ht
        cases ht
        rfl
      · rw [ih (fun q hq => hs q (by simp [hq])) hmem']
        cases t <;> rfl
  simp only [toName]
  rw [if_neg hlit, hp]

/-- Otherwise there is a name. -/
theorem C48_small (I : ArgInfo A) (base : List Char) (args : List (List Char × Option A))
    (hlit : (noSpaces base).take 8 ≠ "LITERAL_".toList)
    (hs : ∀ q ∈ args, ∀ a, q.2 = some a → Sized I a ∧ ¬ Large I a) : ∃ n, toName I (some base) args = .ok (some n) := by
  have hp : ∃ ps, nameParts I args = .ok (some ps) := by
    clear hlit
    induction args with
    | nil => exact ⟨[], rfl⟩
    | cons q args ih =>
      obtain ⟨k', v⟩ := q
      obtain ⟨ps, hps⟩ := ih fun q hq => hs q (by simp [hq])
      have ht : tooLong I v = .ok false := by
        cases v with
        | none => rfl
        | some a =>
          obtain ⟨h1, h2⟩ := hs (k', some a) (by simp) a rfl
          obtain ⟨t, ht⟩ := tooLong_ok (I := I) (a := some a) fun b hb => by cases hb; exact h1
          cases t with
          | false => exact ht
          | true =>
            exfalso
            apply h2
            unfold tooLong at ht
            simp only at ht
            split at ht
            · rename_i hl
              refine ⟨hl, ?_⟩
              split at ht
              · rename_i hc; exact Or.inl hc
              · split at ht
                · cases ht
                · rename_i n hn
                  exact Or.inr ⟨n, hn, by simpa using ht⟩
            · cases ht
      simp only [nameParts, ht, hps]
      exact ⟨_, rfl⟩
  obtain ⟨ps, hps⟩ := hp
  simp only [toName]
  rw [if_neg hlit, hps]
  exact ⟨_, rfl⟩

/-- A zero-dimensional array as argument raises `TypeError`. -/
theorem C48_zero_dim (I : ArgInfo A) (base k : List Char) (a : A) (rest : List (List Char × Option A))
    (hlit : (noSpaces base).take 8 ≠ "LITERAL_".toList) (hl : I.hasLen a = true) (h1 : I.ravelLen a ≤ 5)
    (h0 : I.len a = none) : toName I (some base) ((k, some a) :: rest) = .error .type := by
  have : tooLong I (some a) = .error .type := by
    simp only [tooLong, hl, if_true]
    rw [if_neg (by omega), h0]
  simp only [toName]
  rw [if_neg hlit]
  simp only [nameParts, this]

/-- Names contain no spaces. -/
theorem C48_no_spaces (I : ArgInfo A) (base : Option (List Char)) (args : List (List Char × Option A))
    (hk : ∀ q ∈ args, ' ' ∉ q.1) (n : Name) (h : toName I base args = .ok (some n)) : ' ' ∉ n := by
  cases base with
  | none => cases h
  | some b =>
    by_cases hlit : (noSpaces b).take 8 = "LITERAL_".toList
    · simp only [toName] at h
      rw [if_pos hlit] at h
      cases h
      exact fun hm => space_not_mem_noSpaces b (List.mem_of_mem_drop hm)
    · obtain ⟨ps, hp, hn⟩ := toName_some hlit h
      rw [nameParts_some hp] at hn
      have key : ∀ l : List (List Char), (∀ t ∈ l, ' ' ∉ t) → ' ' ∉ ['_'].intercalate l := by
        intro l hl hm
        unfold List.intercalate at hm
        rw [List.mem_flatten] at hm
        obtain ⟨t, ht, hm⟩ := hm
        have hmem : ∀ l : List (List Char), t ∈ List.intersperse ['_'] l → t = ['_'] ∨ t ∈ l := by
          intro l
          induction l with
          | nil => intro h; cases h
          | cons a l ih =>
            cases l with
            | nil => intro h; exact Or.inr h
            | cons a' l =>
              intro h
              rw [List.intersperse_cons_cons] at h
              simp only [List.mem_cons] at h
              rcases h with h | h | h
              · exact Or.inr (by simp [h])
              · exact Or.inl h
              · rcases ih (by simpa using h) with h | h
                · exact Or.inl h
                · exact Or.inr (List.mem_cons_of_mem _ h)
        rcases hmem l ht with rfl | h'
        · exact absurd hm (by decide)
        · exact hl t h' hm
      rw [hn]
      apply key
      intro t ht
      rcases List.mem_cons.1 ht with rfl | ht
      · exact space_not_mem_noSpaces b
      · obtain ⟨q, hq, rfl⟩ := List.mem_map.1 ht
        simp only [List.mem_append, List.mem_singleton, not_or]
        exact ⟨⟨hk q hq, by decide⟩, space_not_mem_noSpaces _⟩

/-- lists of integers as arguments -/
def listInfo : ArgInfo (List Int) where
  text l := ['['] ++ (", ".toList).intercalate (l.map intStr) ++ [']']
  hasLen _ := true
  isArr _ := false
  ravelLen l := l.length
  len l := some l.length
  items _ := none

example : toName listInfo (some "my iou".toList) [("over".toList, some [1, -2]), ("below".toList, none)] =
    .ok (some "my_iou_over_[1,_-2]_below_None".toList) := by decide +kernel

example : Large listInfo [1, 2, 3, 4, 5, 6] ∧ Sized listInfo [1, 2, 3, 4, 5, 6] ∧ ¬ Large listInfo [1, 2, 3, 4, 5] := by
  refine ⟨⟨rfl, Or.inr ⟨6, rfl, by decide⟩⟩, fun _ => rfl, ?_⟩
  rintro ⟨-, ⟨h, -⟩ | ⟨n, h, h5⟩⟩
  · cases h
  · cases h
    simp at h5

/-! ### C49 -/

/-- After validation of a verifier that saves to `d`: with `start_from_scratch=True`, or if `d` did not exist, `d` is an
empty directory; otherwise nothing has changed. -/
theorem C49_directory (P : Prims X V A) (mids : FS V → Path → List (FS V)) {o o' : Obj X} {w w' : World V} {d : Path}
    (hdir : o.dir = .path d) (hd : d ≠ []) (hw : WellFormed w.fs) (h : validate P mids o w = (.ok (), o', w')) :
    ((o.scratch = some true ∨ w.fs d = none) → w'.fs d = some .dir ∧ ∀ q, d <+: q → q ≠ d → w'.fs q = none) ∧
    (o.scratch = some false → w.fs d ≠ none → w' = w) := by
  obtain ⟨-, -, -, -, -, -, -, -, s, hs, hv⟩ := validate_ok h
  rw [hdir] at hv
  constructor
  · intro hc
    refine prepareDir_empty hd hw hv ?_
    rcases hc with hc | hc
    · rw [hs] at hc; cases hc; exact Or.inl rfl
    · exact Or.inr hc
  · intro h1 h2
    rw [hs] at h1
    cases h1
    have hsome : (w.fs d).isSome := by rw [Option.isSome_iff_ne_none]; exact h2
    simp only [validateSaving, prepareDir, hsome, if_true, Bool.false_eq_true, if_false, Prod.mk.injEq, true_and] at hv
    exact hv.symm

theorem makeDirs_trace_keeps (ps : List Path) (w : World V) (q : Path) (n : Node V) (h : w.fs q = some n) :
    ∀ fs ∈ (makeDirs ps w).2.trace, fs ∈ w.trace ∨ fs q = some n := by
  induction ps generalizing w with
  | nil => exact fun fs hf => Or.inl hf
  | cons p ps ih =>
    simp only [makeDirs]
    split
    · exact ih w h
    · exact fun fs hf => Or.inl hf
    · rename_i hp
      have hne : q ≠ p := by rintro rfl; rw [hp] at h; cases h
      have hq : (w.eff (w.fs.set p (some .dir))).fs q = some n := by
        simp only [World.eff, FS.set]; rw [if_neg hne]; exact h
      intro fs hf
      rcases ih _ hq fs hf with hf | hf
      · simp only [World.eff, List.mem_append, List.mem_singleton] at hf
        rcases hf with hf | rfl
        · exact Or.inl hf
        · exact Or.inr hq
      · exact Or.inr hf

/-- Nothing outside the working directory is deleted or changed, not even for a moment, whether validation succeeds or
raises. -/
theorem C49_outside (P : Prims X V A) {mids : FS V → Path → List (FS V)} (hm : Deletion mids) (o : Obj X) (w : World V)
    (q : Path) (n : Node V) (hq : ∀ d, o.dir = .path d → ¬ d <+: q) (h : w.fs q = some n) :
    (validate P mids o w).2.2.fs q = some n ∧
      ∀ fs ∈ (validate P mids o w).2.2.trace, fs ∈ w.trace ∨ fs q = some n := by
  obtain ⟨-, -, -, -, -, hw⟩ := validate_any P mids o w
  rcases hw with hw | ⟨s, hw⟩
  · rw [hw]; exact ⟨h, fun fs hf => Or.inl hf⟩
  · rw [hw]
    cases hdir : o.dir with
    | none => exact ⟨h, fun fs hf => Or.inl hf⟩
    | other => exact ⟨h, fun fs hf => Or.inl hf⟩
    | path d =>
      have hd := hq d hdir
      refine ⟨prepareDir_keeps s d w q n hd h, ?_⟩
      simp only [validateSaving, prepareDir]
      split
      · split
        · unfold rmTree
          split
          · rename_i w1 heq
            split at heq
            · cases heq
            · cases heq; exact fun fs hf => Or.inl hf
            · cases heq; exact fun fs hf => Or.inl hf
          · rename_i w1 heq
            split at heq
            · simp only [Prod.mk.injEq] at heq
              obtain ⟨-, rfl⟩ := heq
              have hrm : removeTree w.fs d q = some n := by
                unfold removeTree; rw [if_neg hd]; exact h
              intro fs hf
              rcases makeDirs_trace_keeps (ancestors d) { w with
                fs := removeTree w.fs d, trace := w.trace ++ mids w.fs d ++ [removeTree w.fs d] } q n hrm fs hf with
                hf | hf
              · simp only [List.append_assoc, List.mem_append, List.mem_singleton] at hf
                rcases hf with hf | hf | rfl
                · exact Or.inl hf
                · rcases hm.only _ _ _ hf q with h' | ⟨h', -⟩
                  · exact Or.inr (h'.trans h)
                  · exact absurd h' hd
                · exact Or.inr hrm
              · exact Or.inr hf
            · cases heq
            · cases heq
        · exact fun fs hf => Or.inl hf
      · exact makeDirs_trace_keeps (ancestors d) w q n h

theorem makeDirs_succeeds (ps : List Path) (w : World V) (h : ∀ p ∈ ps, ∀ c, w.fs p ≠ some (.file c)) :
    (makeDirs ps w).1 = .ok () := by
  induction ps generalizing w with
  | nil => rfl
  | cons p ps ih =>
    simp only [makeDirs]
    split
    · exact ih w fun q hq => h q (by simp [hq])
    · rename_i c hc; exact absurd hc (h p (by simp) c)
    · apply ih
      intro q hq c hc
      simp only [World.eff, FS.set] at hc
      split at hc
      · cases hc
      · exact h q (by simp [hq]) c hc

/-- Preparing the directory raises only if a regular file is in the way. -/
theorem C49_succeeds (mids : FS V → Path → List (FS V)) (scratch : Bool) (d : Path) (w : World V)
    (h : ∀ p ∈ ancestors d, ∀ c, w.fs p ≠ some (.file c)) (hd : d ≠ []) :
    (prepareDir mids scratch d w).1 = .ok () := by
  unfold prepareDir
  split
  · rename_i hs
    split
    · unfold rmTree
      cases hn : w.fs d with
      | none => rw [hn] at hs; cases hs
      | some nd =>
        cases nd with
        | file c => exact absurd hn (h d (self_mem_ancestors hd) c)
        | dir =>
          simp only
          apply makeDirs_succeeds
          intro p hp c hc
          simp only [removeTree] at hc
          split at hc
          · cases hc
          · exact h p hp c hc
    · rfl
  · exact makeDirs_succeeds _ _ h

/-- With a regular file at the path and `start_from_scratch=False` the verifier is accepted although the working
directory is not a directory; the first metric call that saves raises. -/
theorem C49_file_accepted : ∃ (w : World (PyVal ℚ)) (o : Obj (DetX ℚ)), WellFormed w.fs ∧
    construct detP noMids ⟨.none, .none, .path dirW, some false, detX1⟩ w = (.ok o, w) ∧
    w.fs dirW = some (.file .torn) ∧
    errOf (result .determ intInfo detP noMids (.slot .error) o w) = some .generic := by
  refine ⟨startWorld (emptyFS.set dirW (some (.file .torn))) fun _ => 0, _, ?_, rfl, rfl, by decide +kernel⟩
  refine ⟨rfl, fun q x h => ?_⟩
  simp only [startWorld, FS.set, emptyFS] at h ⊢
  cases q with
  | nil => rfl
  | cons a q =>
    exfalso
    apply h
    rw [if_neg (by simp [dirW]), if_neg (by simp)]

example : ∃ o w, validate detP noMids ⟨.none, .none, .path dirW, some true, detX1⟩ world0 = (.ok (), o, w) ∧
    w.fs dirW = some .dir := ⟨_, _, rfl, rfl⟩

/-! ### C52 -/

section collapse
variable {K : Type} [Field K] [LinearOrder K] [FloorSemiring K]

/-- `set_collapse_func(g)` (VerifyEnsemble.py:60-63) -/
def setCollapse (g : NDArr (Fl K) → Int → Except Err (NDArr (Fl K))) : Op (EnsX K) A :=
  .setExt fun x => { x with collapse := g }

/-- `set_ensemble_axis(a)` (VerifyEnsemble.py:55-58) -/
def setEnsAxis (a : Option Int) : Op (EnsX K) A := .setExt fun x => { x with axis := a }

/-- What holds: the collapse function given to the constructor is the one used. -/
theorem C52_constructor_partial (c : Cfg K) (emb : A → Arg K) (I : ArgInfo A) (mids : FS (PyVal K) → Path → List (FS (PyVal K)))
    {oi o : Obj (EnsX K)} {w w' : World (PyVal K)}
    (h : construct (ensPrims c emb) mids oi w = (.ok o, w')) :
    ∃ ax fc, o.ext.axis = some ax ∧ oi.ext.collapse oi.ext.f ax = .ok fc ∧
      ∀ w1, result .ensemble I (ensPrims c emb) mids (.slot .fDeterm) (unsaved o) w1 = .ok (some (.num fc)) := by
  rcases construct_cases (ensPrims c emb) (mids := mids) (oi := oi) (w := w) with
    ⟨e, w1, he, -⟩ | ⟨o', ho, -, -, -, -, x1, hx1, hx2⟩
  · rw [he] at h; cases h
  · rw [ho] at h
    simp only [Prod.mk.injEq, Except.ok.injEq] at h
    obtain ⟨rfl, -⟩ := h
    simp only [ensPrims] at hx1 hx2
    split at hx1
    · cases hx1
    · rename_i a ha
      simp only [Prod.mk.injEq, true_and] at hx1
      subst hx1
      simp only [EnsX.ax] at hx2
      change (oi.ext.collapse oi.ext.f a >>= fun fc => Except.ok { oi.ext with axis := some a, fc := some fc }) = _ at hx2
      cases hc : oi.ext.collapse oi.ext.f a with
      | error e => rw [hc] at hx2; cases hx2
      | ok fc =>
        rw [hc] at hx2
        change Except.ok { oi.ext with axis := some a, fc := some fc } = _ at hx2
        simp only [Except.ok.injEq] at hx2
        refine ⟨a, fc, by rw [← hx2], hc, fun w1 => ?_⟩
        have hfc : o'.ext.fc = some fc := by rw [← hx2]
        have hbody : (fDetBody .ensemble I (ensPrims c emb) o'.ext : Prog (PyVal K)) = .ret (.ok (.num fc)) := by
          simp only [fDetBody, ensPrims, hfc]
        have hname : slotName I (.fDeterm : Slot A) = .ok (some "f_determ".toList) := by
          simp only [slotName, toName]
          rw [if_neg (by decide)]
          rfl
        simp only [result, step, metricProg, Slot.probOnly, Bool.false_eq_true, false_and, if_false, hname, slotBody,
          hbody, Prog.callName, unsaved, Obj.wd, Prog.run, load, save, slotPost]

/-- In general the claim fails: the collapsed forecasts stay what they were. -/
theorem C52_ignored (c : Cfg K) (emb : A → Arg K) (I : ArgInfo A) (mids : FS (PyVal K) → Path → List (FS (PyVal K)))
    (g : NDArr (Fl K) → Int → Except Err (NDArr (Fl K))) (a : Option Int) (o : Obj (EnsX K)) (w : World (PyVal K)) :
    (step .ensemble I (ensPrims c emb) mids (setCollapse g) o w).2.1.ext.fc = o.ext.fc ∧
    (step .ensemble I (ensPrims c emb) mids (setEnsAxis a) o w).2.1.ext.fc = o.ext.fc := by
  have hcheck : ∀ x : EnsX K, ((ensPrims c emb).check x).2.fc = x.fc := by
    intro x
    simp only [ensPrims]
    split <;> rfl
  have aux : ∀ o2 : Obj (EnsX K), (validate (ensPrims c emb) mids o2 w).2.1.ext.fc = o2.ext.fc := by
    intro o2
    obtain ⟨-, -, -, -, h, -⟩ := validate_any (ensPrims c emb) mids o2 w
    rcases h with h | h <;> rw [h]
    exact hcheck _
  constructor
  · have := aux { o with ext := { o.ext with collapse := g } }
    simp only [setCollapse, step]
    split
    · rename_i e o1 w1 hv
      rw [hv] at this; exact this
    · rename_i u o1 w1 hv
      rw [hv] at this; exact this
  · have := aux { o with ext := { o.ext with axis := a } }
    simp only [setEnsAxis, step]
    split
    · rename_i e o1 w1 hv
      rw [hv] at this; exact this
    · rename_i u o1 w1 hv
      rw [hv] at this; exact this

end collapse

/-- member `m` of an ensemble along the first axis -/
def member (m : Nat) (f : NDArr (Fl ℚ)) (_ : Int) : Except Err (NDArr (Fl ℚ)) :=
  .ok (NDArr.ofFn f.shape.tail fun k => f.get (m :: k))

/-- two members, one observation -/
def ensX : EnsX ℚ := ⟨⟨[2, 1], [some 1, some 5], rfl⟩, ⟨[1], [some 3], rfl⟩, some 0, member 0, none⟩

/-- The claim is false: after `set_collapse_func` the deterministic forecast is still the first member (1), not the
second (5). -/
theorem C52_false : ∃ o w, construct ensP noMids ⟨.none, .none, .none, some true, ensX⟩ world0 = (.ok o, w) ∧
    errOf (step .ensemble intInfo ensP noMids (setCollapse (member 1)) o w).1 = none ∧
    let s := (step .ensemble intInfo ensP noMids (setCollapse (member 1)) o w).2
    numOf (result .ensemble intInfo ensP noMids (.slot .fDeterm) s.1 s.2) = some ([1], [some 1]) ∧
    numOf (.ok ((member 1 ensX.f 0).toOption.map PyVal.num)) = some ([1], [some 5]) :=
  ⟨_, _, rfl, rfl, by decide +kernel, by decide +kernel⟩

/-! ### C53 -/

/-- requests with `over` and `below` -/
def TakesThresholds (s : Slot A) (over below : Option A) : Prop :=
  s = .cdf over below ∨ s = .brier over below ∨ s = .sharpness over below ∨ s = .roc over below ∨
    (∃ n, s = .reliability n over below) ∨ s = .brierDecomp over below

theorem cdfBody_bad {C : Cls} (hC : C ≠ .determ) (I : ArgInfo A) (P : Prims X V A) (x : X) {o b : Option A}
    (h : o.isSome = b.isSome) : cdfBody C I P x o b = .ret (.error .assertion) := by
  unfold cdfBody
  rw [if_neg hC]
  cases o <;> cases b <;> first | rfl | cases h

/-- Unless exactly one of `over` and `below` is given, the request raises `AssertionError` and does nothing else. -/
theorem C53_assertion (C : Cls) (hC : C ≠ .determ) (I : ArgInfo A) (P : Prims X V A)
    (mids : FS V → Path → List (FS V)) (o : Obj X) (w : World V) (s : Slot A) (over below : Option A)
    (hs : TakesThresholds s over below) (h : over.isSome = below.isSome) (n n' : Option Name)
    (hn : slotName I s = .ok n) (hn' : slotName I (.cdf over below) = .ok n')
    (hl : load o.wd n w = .ok none) (hl' : load o.wd n' w = .ok none) :
    step C I P mids (.metric (.slot s)) o w = (.error .assertion, o, w) := by
  have hb := cdfBody_bad hC I P o.ext h
  have hp : s.probOnly = false := by
    rcases hs with rfl | rfl | rfl | rfl | ⟨m, rfl⟩ | rfl <;> rfl
  have hrun : (slotBody C I P o.ext o.avg o.boot s).run o.wd w = (.error .assertion, w) := by
    rcases hs with rfl | rfl | rfl | rfl | ⟨m, rfl⟩ | rfl
    · simp only [slotBody, hb, Prog.run]
    · simp only [slotBody, brierBody, if_neg hC, cdfCall, hn', Prog.callName, Prog.run, hl', hb]
    · simp only [slotBody, if_neg hC, cdfCall, hn', Prog.callName, Prog.run, hl', hb]
    · simp only [slotBody, withProb, if_neg hC, cdfCall, hn', Prog.callName, Prog.run, hl', hb]
    · simp only [slotBody, withProb, if_neg hC, cdfCall, hn', Prog.callName, Prog.run, hl', hb]
    · simp only [slotBody, withProb, if_neg hC, cdfCall, hn', Prog.callName, Prog.run, hl', hb]
  simp only [step, metricProg, hp, Bool.false_eq_true, false_and, if_false, hn, Prog.callName, Prog.run, hl, hrun]

/-- The same for `iou_determ` of deterministic and ensemble forecasts. -/
theorem C53_iou (C : Cls) (hC : C = .determ ∨ C = .ensemble) (I : ArgInfo A) (P : Prims X V A)
    (mids : FS V → Path → List (FS V)) (o : Obj X) (w : World V) (over below : Option A)
    (h : over.isSome = below.isSome) (n : Option Name) (hn : slotName I (.iouDeterm over below) = .ok n)
    (hl : load o.wd n w = .ok none) (v : V) (hf : P.fDet o.ext = .ok v) :
    step C I P mids (.metric (.slot (.iouDeterm over below))) o w = (.error .assertion, o, w) := by
  have hx : xorGiven over below = false := by
    cases over <;> cases below <;> first | rfl | cases h
  have hrun : (slotBody C I P o.ext o.avg o.boot (.iouDeterm over below)).run o.wd w = (.error .assertion, w) := by
    rcases hC with rfl | rfl <;>
      simp only [slotBody, withDet, hf, hx, Bool.false_eq_true, if_false] <;> rfl
  simp only [step, metricProg, Slot.probOnly, Bool.false_eq_true, false_and, if_false, hn, Prog.callName, Prog.run, hl,
    hrun]

/-- For distributions `iou_determ` raises too, but only after saving `f_determ`: the part "no file is written" of the
claim is false. -/
theorem C53_false_prob_iou (C : Cls) (hC : C = .gaussian ∨ C = .gamma) (I : ArgInfo A) (P : Prims X V A)
    (mids : FS V → Path → List (FS V)) (o : Obj X) (w : World V) (over below : Option A)
    (h : over.isSome = below.isSome) (n : Option Name) (hn : slotName I (.iouDeterm over below) = .ok n) (d : Path)
    (hd : o.dir = .path d) (hdir : w.fs d = some .dir) (hl : load o.wd n w = .ok none)
    (hnew : w.fs (filePath d "f_determ".toList) = none) (v : V) (hf : P.fDet o.ext = .ok v) :
    (step C I P mids (.metric (.slot (.iouDeterm over below))) o w).1 = .error .assertion ∧
    (step C I P mids (.metric (.slot (.iouDeterm over below))) o w).2.2.fs (filePath d "f_determ".toList) =
      some (.file (.full v)) := by
  have hx : xorGiven over below = false := by
    cases over <;> cases below <;> first | rfl | cases h
  have hwd : o.wd = some d := by simp [Obj.wd, hd]
  have hname : slotName I (.fDeterm : Slot A) = .ok (some "f_determ".toList) := by
    simp only [slotName, toName]
    rw [if_neg (by decide)]
    rfl
  have hbody : fDetBody C I P o.ext = .ret (.ok v) := by
    rcases hC with rfl | rfl <;> simp only [fDetBody, hf]
  have hslot : slotBody C I P o.ext o.avg o.boot (.iouDeterm over below) =
      .call (some "f_determ".toList) (.ret (.ok v)) fun _ => .ret (.error .assertion) := by
    rcases hC with rfl | rfl <;>
      simp only [slotBody, withDet, fDetCall, hname, hbody, hx, Bool.false_eq_true, if_false, Prog.callName]
  have hload : load (some d) (some "f_determ".toList) w = .ok none := by
    simp only [load, hnew]
  have hrun : (slotBody C I P o.ext o.avg o.boot (.iouDeterm over below)).run o.wd w = (.error .assertion,
      (w.eff (w.fs.set (filePath d "f_determ".toList) (some (.file .torn)))).eff
        ((w.fs.set (filePath d "f_determ".toList) (some (.file .torn))).set (filePath d "f_determ".toList)
          (some (.file (.full v))))) := by
    rw [hslot]
    simp only [Prog.run, hwd, hload, save, hdir, hnew, World.eff]
  have hstep : step C I P mids (.metric (.slot (.iouDeterm over below))) o w = (.error .assertion, o,
      (w.eff (w.fs.set (filePath d "f_determ".toList) (some (.file .torn)))).eff
        ((w.fs.set (filePath d "f_determ".toList) (some (.file .torn))).set (filePath d "f_determ".toList)
          (some (.file (.full v))))) := by
    simp only [step, metricProg, Slot.probOnly, Bool.false_eq_true, false_and, if_false, hn, Prog.callName, Prog.run, hl,
      hrun]
  rw [hstep]
  exact ⟨rfl, by simp [World.eff, FS.set]⟩

example : errOf (step .ensemble intInfo ensP noMids (.metric (.slot (.brier (some 1) (some 2))))
    ⟨.none, .none, .none, some true, ensX⟩ world0).1 = some .assertion := by decide +kernel

/-! ### C56 -/

/-- the axes meant by an `avg_axis` argument -/
def axesOf : PyAxis → Option (List Int)
  | .int i => some [i]
  | .list l => some l
  | .tuple l => some l
  | _ => none

/-- A successful constructor or `set_avg_axis` stores `None` as it is, and an int, list or tuple as the tuple of the
same axes. -/
theorem C56_stored (P : Prims X V A) (mids : FS V → Path → List (FS V)) {o o' : Obj X} {w w' : World V}
    (h : validate P mids o w = (.ok (), o', w')) :
    (o.avg = .none ∧ o'.avg = .none) ∨ ∃ l, axesOf o.avg = some l ∧ o'.avg = .tuple l := by
  obtain ⟨h1, h2, -⟩ := validate_ok h
  rw [h2]
  cases ha : o.avg with
  | none => exact Or.inl ⟨rfl, rfl⟩
  | int i => exact Or.inr ⟨[i], rfl, rfl⟩
  | list l => exact Or.inr ⟨l, rfl, rfl⟩
  | tuple l => exact Or.inr ⟨l, rfl, rfl⟩
  | other => rw [ha] at h1; cases h1

/-- Anything else is rejected, before the file system is touched. -/
theorem C56_rejected (P : Prims X V A) (mids : FS V → Path → List (FS V)) (o : Obj X) (w : World V)
    (h : o.avg = .other) : (validate P mids o w).1 = .error .assertion ∧ (validate P mids o w).2.2 = w := by
  unfold validate
  rw [h]
  exact ⟨rfl, rfl⟩

/-- No other call ever changes a stored `avg_axis`. -/
theorem C56_kept (C : Cls) (I : ArgInfo A) (P : Prims X V A) (mids : FS V → Path → List (FS V)) (ops : List (Op X A))
    (hops : ∀ op ∈ ops, ∀ a, op ≠ .setAvg a) (o : Obj X) (w : World V)
    (ha : o.avg = .none ∨ ∃ l, o.avg = .tuple l) : (runOps C I P mids ops o w).1.avg = o.avg := by
  have hfix : (validateAxis o.avg).2 = o.avg := by
    rcases ha with ha | ⟨l, ha⟩ <;> rw [ha] <;> rfl
  have hstep : ∀ (op : Op X A), (∀ a, op ≠ .setAvg a) → ∀ (o2 : Obj X) (w : World V), o2.avg = o.avg →
      (step C I P mids op o2 w).2.1.avg = o.avg := by
    intro op hop o2 w h2
    have aux : ∀ o3 : Obj X, o3.avg = o.avg →
        (match validate P mids o3 w with
          | (.error e, o1, w1) => ((.error e : Except Err (Option V)), o1, w1)
          | (.ok _, o1, w1) => (.ok none, o1, w1)).2.1.avg = o.avg := by
      intro o3 h3
      obtain ⟨h, -⟩ := validate_any P mids o3 w
      rw [h3, hfix] at h
      split
      · rename_i hv; rw [hv] at h; exact h
      · rename_i hv; rw [hv] at h; exact h
    cases op with
    | metric r =>
      simp only [step]
      split <;> exact h2
    | setAvg a => exact absurd rfl (hop a)
    | setBoot b => exact aux _ h2
    | setExt g => exact aux _ h2
    | enableSaving d s => exact aux _ h2
    | disableBoot => exact h2
    | disableSaving => exact h2
  have gen : ∀ (ops : List (Op X A)), (∀ op ∈ ops, ∀ a, op ≠ .setAvg a) → ∀ (o2 : Obj X) (w : World V),
      o2.avg = o.avg → (runOps C I P mids ops o2 w).1.avg = o.avg := by
    intro ops
    induction ops with
    | nil => intro _ o2 w h2; exact h2
    | cons op ops ih =>
      intro hops o2 w h2
      exact ih (fun op' h' => hops op' (by simp [h'])) _ _ (hstep op (hops op (by simp)) o2 w h2)
  exact gen ops hops o w rfl

example : ∃ o w, validate detP noMids ⟨.list [1, 0], .none, .none, some true, detX1⟩ world0 = (.ok (), o, w) ∧
    o.avg = .tuple [1, 0] := ⟨_, _, rfl, rfl⟩

/-! ### C64 -/

/-- A rejected `set_avg_axis` has already changed the verifier. -/
theorem C64_attribute_changed (C : Cls) (I : ArgInfo A) (P : Prims X V A) (mids : FS V → Path → List (FS V))
    (o : Obj X) (w : World V) :
    step C I P mids (.setAvg .other) o w = (.error .assertion, { o with avg := .other }, w) := rfl

/-- deterministic data with saved results -/
def detX2 : DetX ℚ := ⟨⟨[2, 2], [some 1, some 0, some 1, some 1], rfl⟩, ⟨[2, 2], [some 1, some 1, some 0, some 1], rfl⟩⟩

/-- The claim "a setter that raises has no effect on later results" is false: after a rejected `set_avg_axis` the
metric raises when saving is off, and returns the old saved number when it is on (even with
`start_from_scratch=True`). -/
theorem C64_false : ∃ o w, construct detP noMids ⟨.none, .none, .path dirW, some true, detX2⟩ world0 = (.ok o, w) ∧
    let r : Req Int := .slot (.iouDeterm (some 0) none)
    let s := runOps .determ intInfo detP noMids [.metric r, .setAvg .other] o w
    numOf (result .determ intInfo detP noMids r s.1 s.2) = some ([], [some (1 / 2)]) ∧
    errOf (result .determ intInfo detP noMids r (unsaved s.1) s.2) = some .type ∧
    numOf (result .determ intInfo detP noMids r (unsaved o) w) = some ([], [some (1 / 2)]) := by
  refine ⟨_, _, rfl, by decide +kernel, by decide +kernel, by decide +kernel⟩

/-- What holds: a rejected `set_avg_axis` followed by one that is accepted leaves nothing behind (settings and file
system are as if the first had not been made). -/
theorem C64_retry_partial (C : Cls) (I : ArgInfo A) (P : Prims X V A) (mids : FS V → Path → List (FS V))
    (o : Obj X) (w : World V) (a : PyAxis) :
    runOps C I P mids [.setAvg .other, .setAvg a] o w = runOps C I P mids [.setAvg a] o w := rfl

/-! ### C65 -/

/-- Saved results are told apart by the printed thresholds only.  If two thresholds print alike, then after
`cdf(below=a)` the call `cdf(below=b)` gives the probabilities for `a`. -/
theorem C65_printed_alike (C : Cls) (hC : C ≠ .determ) (I : ArgInfo A) (P : Prims X V A)
    (mids : FS V → Path → List (FS V)) (o : Obj X) (w : World V) (a b : A) (n : Name)
    (ha : slotName I (.cdf none (some a)) = .ok (some n)) (hb : slotName I (.cdf none (some b)) = .ok (some n))
    (d : Path) (hd : o.dir = .path d) (hdir : w.fs d = some .dir) (hnew : w.fs (filePath d n) = none) (v : V)
    (hv : P.cdfBelow o.ext a = .ok v) :
    let w1 := (step C I P mids (.metric (.slot (.cdf none (some a)))) o w).2.2
    result C I P mids (.slot (.cdf none (some b))) o w1 = .ok (some v) := by
  have hwd : o.wd = some d := by simp [Obj.wd, hd]
  have hbody : cdfBody C I P o.ext none (some a) = .ret (.ok v) := by
    simp only [cdfBody, if_neg hC, hv]
  simp only [step, metricProg, Slot.probOnly, Bool.false_eq_true, false_and, if_false, ha, Prog.callName, Prog.run, hwd,
    slotBody, hbody, load, hnew, save, hdir, result, hb, World.eff, FS.set, if_true, slotPost]

/-- rational thresholds printed like numpy does inside small arrays, rounded to eight digits -/
def coarseInfo : ArgInfo ℚ where
  text q := intStr (q * 10 ^ 8 + 1 / 2).floor
  hasLen _ := false
  isArr _ := false
  ravelLen _ := 1
  len _ := none
  items _ := none

def ensQ : Prims (EnsX ℚ) (PyVal ℚ) ℚ := ensPrims cfg0 fun q => .thr (.scalar (some q))

/-- The claim "different thresholds never share a result" is false: the probability of not exceeding 1 is
reported as that of not exceeding 1 - 1/10^9. -/
theorem C65_false : ∃ o w, construct ensQ noMids ⟨.none, .none, .path dirW, some true, ensX⟩ world0 = (.ok o, w) ∧
    let w1 := (step .ensemble coarseInfo ensQ noMids (.metric (.slot (.cdf none (some (1 - 1 / 10 ^ 9))))) o w).2.2
    numOf (result .ensemble coarseInfo ensQ noMids (.slot (.cdf none (some 1))) o w1) =
      some ([1], [some 0]) ∧
    numOf (result .ensemble coarseInfo ensQ noMids (.slot (.cdf none (some 1))) (unsaved o) w1) =
      some ([1], [some (1 / 2)]) := by
  refine ⟨_, _, rfl, by decide +kernel, by decide +kernel⟩

/-- With scalars of different printed form this does not happen (see C47). -/
theorem C65_distinct_partial {I : ArgInfo A} (h : TextOK I) {a b : A} (hab : a ≠ b) {n n' : Name}
    (ha : slotName I (.cdf none (some a)) = .ok (some n)) (hb : slotName I (.cdf none (some b)) = .ok (some n')) :
    n ≠ n' := by
  rintro rfl
  have := slotName_inj h ha hb
  simp only [Slot.cdf.injEq, Option.some.injEq, true_and] at this
  exact hab this

end Props
