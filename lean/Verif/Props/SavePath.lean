import Verif.Lemmas.SavePathApi
import Verif.Lemmas.ApiCase
import Verif.Props.SaveName

/-!
# Save names with slashes: C114

A public metric call of a verifier whose working directory is the text `t`, while the current directory is `cwd`, is
`(namedProg …).runS cwd (some t)`.
-/

set_option linter.unusedSectionVars false

namespace Props
open Np Model Spec Lemmas

variable {X V A : Type}

/-- the claim: what a call saves, it saves in the working directory or below -/
def C114_statement (C : Cls) (I : ArgInfo A) (P : Prims X V A) : Prop :=
  ∀ (x : X) (avg : PyAxis) (boot : PyBoot) (name : Option (List Char)) (r : Req A) (cwd : Path) (t : List Char) (d : Path)
    (w : World V), t ≠ [] → resolve w.fs cwd t = .ok d → w.fs d = some .dir →
    ∀ q, w.fs q = none → ((namedProg C I P x avg boot name r).runS cwd (some t) w).2.fs q ≠ none → d <+: q

/-- Whatever the save name, a call never changes or removes a file or directory that was there, makes no directories,
and every file it adds is a complete pickle with a name ending in `.pkl` in a directory that was there before. -/
theorem C114_adds (C : Cls) (I : ArgInfo A) (P : Prims X V A) (x : X) (avg : PyAxis) (boot : PyBoot)
    (name : Option (List Char)) (r : Req A) (cwd : Path) {t : List Char} (ht : t ≠ []) (w : World V) :
    OnlyAdds w.fs ((namedProg C I P x avg boot name r).runS cwd (some t) w).2.fs := by
  obtain ⟨c, t, rfl⟩ := List.exists_cons_of_ne_nil ht
  exact (runS_adds (Q := fun _ => True) cwd c t _ w (namesIn_true (fun _ _ _ => trivial) _)).only

/-- The claim holds if the name that is built is relative and does not lead upwards, and arguments are printed without
slashes. -/
theorem C114_inside_partial (C : Cls) {I : ArgInfo A} (hI : ∀ a, '/' ∉ I.text a) (P : Prims X V A) (x : X) (avg : PyAxis)
    (boot : PyBoot) {name : Option (List Char)} {r : Req A}
    (hn : ∀ n, slotNameAs I name (stored r) = .ok (some n) → Inner n) (cwd : Path) {t : List Char} (ht : t ≠ []) {d : Path}
    {w : World V} (hd : resolve w.fs cwd t = .ok d) (q : Path) (hq : w.fs q = none)
    (hq' : ((namedProg C I P x avg boot name r).runS cwd (some t) w).2.fs q ≠ none) : d <+: q := by
  obtain ⟨c, t, rfl⟩ := List.exists_cons_of_ne_nil ht
  refine (runS_adds (Q := fun q => d <+: q) cwd c t _ w ?_).where_ q hq hq'
  have hin : ∀ n, Inner n → LeadsTo (fun q => d <+: q) cwd (c :: t) w.fs n := fun n h p hp =>
    ⟨_, (resolve_inner ht hd h hp).symm⟩
  refine namesIn_named C I P x avg boot name r (fun n h => hin n (hn n ?_)) fun s n h => hin n ?_
  · cases r <;> exact h
  · have := noSlash_slot hI h
    refine ⟨fun h' => this (List.mem_of_mem_head? h'), ?_⟩
    rw [← comps_split, comps_plain this, List.mem_singleton]
    rintro rfl
    have := slotName_text h
    have hk := List.mem_of_getElem? (slotText_key I s this.2)
    rw [← this.1] at hk
    revert hk
    decide

/-- With a save name without a slash (or none, or the default one) a call with the directory as the user wrote it does
what the calls of the other claims do with the directory that the text leads to: same result, same files. -/
theorem C114_plain (C : Cls) {I : ArgInfo A} (hI : ∀ a, '/' ∉ I.text a) (P : Prims X V A) (x : X) (avg : PyAxis)
    (boot : PyBoot) {name : Option (List Char)} (hn : ∀ b, name = some b → '/' ∉ b) (r : Req A) (cwd : Path) {t : List Char}
    (ht : t ≠ []) {d : Path} {w : World V} (hd : resolve w.fs cwd t = .ok d) (hdir : w.fs d = some .dir) :
    (namedProg C I P x avg boot name r).runS cwd (some t) w = (namedProg C I P x avg boot name r).run (some d) w := by
  refine runS_plain cwd ht _ ?_ w hd hdir
  refine namesIn_named C I P x avg boot name r (fun n h => ?_) fun s n h => noSlash_slot hI h
  have key : ∀ s : Slot A, slotNameAs I name s = .ok (some n) → '/' ∉ n := by
    intro s h
    unfold slotNameAs at h
    split at h
    · cases h
    · cases hb : name with
      | none => rw [hb] at h; cases h
      | some b =>
        rw [hb] at h
        exact noSlash_toName hI (hn b hb) (noSlash_args _) h
  exact key _ h

/-- Two names that stay inside lead to the same file exactly if they have the same parts: `mine`, `./mine` and `.//mine`
are one name. -/
theorem C114_same {fs : FS V} {cwd d : Path} {t : List Char} (ht : t ≠ []) (hd : resolve fs cwd t = .ok d) {n n' : Name}
    (hn : Inner n) (hn' : Inner n') {p p' : Path} (h : resolve fs cwd (joinPath t (n ++ ".pkl".toList)) = .ok p)
    (h' : resolve fs cwd (joinPath t (n' ++ ".pkl".toList)) = .ok p') :
    p = p' ↔ parts (n ++ ".pkl".toList) = parts (n' ++ ".pkl".toList) := by
  rw [resolve_inner ht hd hn h, resolve_inner ht hd hn' h']
  exact List.append_right_inj d

/-- A save name that leads nowhere, for example into a directory that does not exist, makes the call fail: it computes
and then raises. -/
theorem C114_lost (C : Cls) (I : ArgInfo A) (P : Prims X V A) (x : X) (avg : PyAxis) (boot : PyBoot)
    {name : Option (List Char)} {r : Req A} {n : Name} (hn : slotNameAs I name (stored r) = .ok (some n)) (cwd : Path)
    {t : List Char} (ht : t ≠ []) {w : World V} (hd : ∀ p, resolve w.fs cwd (joinPath t (n ++ ".pkl".toList)) ≠ .ok p) :
    ∃ e, ((namedProg C I P x avg boot name r).runS cwd (some t) w).1 = .error e := by
  obtain ⟨c, t, rfl⟩ := List.exists_cons_of_ne_nil ht
  have key : ∀ (body : Prog V) (k : V → Prog V),
      ∃ e, ((Prog.callName (.ok (some n)) body k).runS cwd (some (c :: t)) w).1 = .error e := by
    intro body k
    simp only [Prog.callName, Prog.runS]
    have hl : loadS cwd (some (c :: t)) (some n) w = .ok none := by
      simp only [loadS]
      cases hr : resolve w.fs cwd (joinPath (c :: t) (n ++ ".pkl".toList)) with
      | error e => rfl
      | ok p => exact absurd hr (hd p)
    rw [hl]
    have hs := (runS_adds (Q := fun _ => True) cwd c t body w (namesIn_true (fun _ _ _ => trivial) _)).dirs
    dsimp only
    cases hb : body.runS cwd (some (c :: t)) w with
    | mk res w1 =>
      rw [hb] at hs
      cases res with
      | error e => exact ⟨e, rfl⟩
      | ok v =>
        simp only [saveS]
        cases hr : resolve w1.fs cwd (joinPath (c :: t) (n ++ ".pkl".toList)) with
        | error e => exact ⟨e, rfl⟩
        | ok p => exact absurd ((hs.resolve _ _).2 hr) (hd p)
  cases r with
  | slot s =>
    simp only [namedProg]
    split
    · exact ⟨_, rfl⟩
    · rw [show slotNameAs I name s = .ok (some n) from hn]; exact key _ _
  | rmse =>
    simp only [namedProg]
    rw [show slotNameAs I name (.sqError : Slot A) = .ok (some n) from hn]; exact key _ _

/-! ### cases -/

/-- the directories `/work`, `/work/sub` and `/home` -/
def treeW {V : Type} : World V :=
  startWorld (fun p => if p = [] ∨ p = dirW ∨ p = dirW ++ ["sub".toList] ∨ p = ["home".toList] then some .dir else none)
    fun _ => 0

def errX : DetX ℚ := ⟨⟨[2], [some 3, some 0], rfl⟩, ⟨[2], [some 1, some 1], rfl⟩⟩

theorem treeW_dir : (treeW (V := PyVal ℚ)).fs dirW = some .dir := by
  simp only [treeW, startWorld]
  exact if_pos (by decide)

/-- `error(save_name=…)` in the working directory `work` of the root -/
def errorAs (name : String) : Except Err (PyVal ℚ) × World (PyVal ℚ) :=
  (namedProg .determ intInfo detP errX .none .none (some name.toList) (.slot .error)).runS [] (some "work".toList) treeW

def hasFile (w : World (PyVal ℚ)) (p : Path) : Bool :=
  match w.fs p with
  | some (.file (.full _)) => true
  | _ => false

theorem noSlash_int (i : Int) : '/' ∉ intInfo.text i := by
  have hd : ∀ d, Nat.digitChar d ≠ '/' := by
    intro d
    by_cases h : d < 16
    · interval_cases d <;> decide
    · have : Nat.digitChar d = '*' := by
        unfold Nat.digitChar
        repeat rw [if_neg (by omega)]
      rw [this]; decide
  have hn : ∀ n, '/' ∉ natStr n := by
    intro n hc
    unfold natStr at hc
    split at hc
    · simp at hc
    · obtain ⟨d, -, h⟩ := List.mem_map.1 hc
      exact hd d h
  change '/' ∉ intStr i
  unfold intStr
  split
  · rw [List.mem_cons, not_or]; exact ⟨by decide, hn _⟩
  · exact hn _

/-- the hypotheses are met: the directory is found, the name `sub/mine` stays inside, and the file is there afterwards -/
example : resolve (treeW (V := PyVal ℚ)).fs [] "work".toList = .ok dirW ∧ (treeW (V := PyVal ℚ)).fs dirW = some .dir ∧
    (∀ n, slotNameAs intInfo (some "sub/mine".toList) (stored (Req.slot (.error : Slot Int))) = .ok (some n) → Inner n) ∧
    hasFile (errorAs "sub/mine").2 (dirW ++ ["sub".toList, "mine.pkl".toList]) = true := by
  refine ⟨by decide +kernel, treeW_dir, ?_, by decide +kernel⟩
  intro n h
  have e : slotNameAs intInfo (some "sub/mine".toList) (stored (Req.slot (.error : Slot Int))) =
    .ok (some "sub/mine".toList) := by decide
  rw [e] at h
  cases h
  unfold Spec.Inner
  rw [← comps_split]
  decide

/-- The claim is false: `error(save_name='../x')`, `error(save_name='/home/x')` and `error(save_name='LITERAL_/home/x')`
write outside the working directory. -/
theorem C114_false : ¬ C114_statement .determ intInfo detP ∧
    hasFile (errorAs "../x").2 ["x.pkl".toList] = true ∧ hasFile (errorAs "/home/x").2 ["home".toList, "x.pkl".toList] = true ∧
    hasFile (errorAs "LITERAL_/home/x").2 ["home".toList, "x.pkl".toList] = true := by
  have h : hasFile (errorAs "../x").2 ["x.pkl".toList] = true := by decide +kernel
  refine ⟨fun hst => ?_, h, by decide +kernel, by decide +kernel⟩
  have := hst errX .none .none (some "../x".toList) (.slot .error) [] "work".toList dirW treeW (by decide)
    (by decide +kernel) treeW_dir ["x.pkl".toList] (by decide +kernel) (fun hq => by
      change (errorAs "../x").2.fs _ = none at hq
      rw [hasFile, hq] at h
      cases h)
  revert this
  decide

/-- A name in a directory that is not there: the call raises and nothing is saved. -/
example : ∃ e, (errorAs "deep/mine").1 = .error e :=
  C114_lost .determ intInfo detP errX .none .none (name := some "deep/mine".toList) (r := .slot .error)
    (n := "deep/mine".toList) (by decide) [] (by decide) fun p hp => by
      have : resolve (treeW (V := PyVal ℚ)).fs [] (joinPath "work".toList ("deep/mine".toList ++ ".pkl".toList)) =
        .error .generic := by decide +kernel
      rw [this] at hp
      cases hp

/-- Different names may be one file: after `error(save_name='mine')`, `sq_error(save_name='./mine')` gives the mean error
1/2; without the first call it gives the mean squared error 5/2. -/
theorem C114_clash_false :
    let sq := fun w => ((namedProg .determ intInfo detP errX .none .none (some "./mine".toList) (.slot .sqError)).runS []
      (some "work".toList) w).1.map some
    numOf (sq (errorAs "mine").2) = some ([], [some (1 / 2)]) ∧ numOf (sq treeW) = some ([], [some (5 / 2)]) := by
  refine ⟨by decide +kernel, by decide +kernel⟩

end Props
