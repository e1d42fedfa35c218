import Verif.Lemmas.Grid

/-!
# C58, C59: matrix files
-/

namespace Props
open Np Model Spec Lemmas

variable {K : Type}

/-- After a successful `write_matrix` a reader gets the dimensions and all elements back. -/
theorem C58_round_trip {str : K → List Char} {num : List Char → Option K} (h : Prints str num) (file : Path)
    (mat : NDArr (Fl K)) (overwrite : Bool) (w w' : World (List Char)) (b : Bool)
    (hw : writeMatrix str file mat overwrite w = (.ok b, w')) :
    ∃ r c text, mat.shape = [r, c] ∧ w'.fs file = some (.file (.full text)) ∧
      readMatrix num text = some (r, c, (List.range r).map fun i => (List.range c).map fun j => mat.get [i, j]) := by
  unfold writeMatrix at hw
  split at hw
  · rename_i r c hs
    split_ifs at hw
    · cases hw
    · split at hw
      · cases hw
      · simp only [Prod.mk.injEq] at hw
        obtain ⟨-, rfl⟩ := hw
        exact ⟨r, c, _, hs, by simp [World.eff, FS.set], readMatrix_ok h r c mat⟩
      · cases hw
  · cases hw

/-- Hence different matrices are written differently. -/
theorem C58_injective {str : K → List Char} {num : List Char → Option K} (h : Prints str num) {r c r' c' : Nat}
    {m m' : NDArr (Fl K)} (hm : m.shape = [r, c]) (hm' : m'.shape = [r', c'])
    (ht : matrixText str r c m = matrixText str r' c' m') : m = m' := by
  have h1 := readMatrix_ok h r c m
  rw [ht, readMatrix_ok h r' c' m'] at h1
  simp only [Option.some.injEq, Prod.mk.injEq] at h1
  obtain ⟨rfl, rfl, h3⟩ := h1
  apply NDArr.ext_get (hm.trans hm'.symm)
  intro k hk
  rw [hm] at hk
  obtain ⟨i, j, rfl, hi, hj⟩ : ∃ i j, k = [i, j] ∧ i < r' ∧ j < c' := by
    unfold InB at hk
    cases hk with
    | cons h1 h2 =>
      cases h2 with
      | cons h3 h4 =>
        cases h4
        exact ⟨_, _, rfl, h1, h3⟩
  have h4 := congrArg (fun l => (l[i]?).bind fun row => row[j]?) h3
  simpa [hi, hj] using h4.symm

/-- printing of integers -/
theorem prints_int : Prints (K := Int) intStr (fun t => match pyInt t with
    | .ok i => some i
    | .error _ => none) := by
  refine ⟨fun x => by simp [pyInt_intStr], fun x => ?_, fun x => ?_⟩
  · have := natStr_clean x.natAbs
    unfold intStr
    split
    · simp only [List.mem_cons, not_or]
      exact ⟨⟨by decide, this.1⟩, ⟨by decide, this.2.1⟩, by decide, this.2.2⟩
    · exact this
  · intro h
    have h1 := pyInt_intStr x
    rw [h] at h1
    have h2 : pyInt "nan".toList = .error .value := by decide
    rw [h2] at h1
    cases h1

/-- an example file: two rows, one NaN -/
example : matrixText intStr 2 3 ⟨[2, 3], [some 1, some (-2), none, some 40, some 5, some 6], rfl⟩ =
    "[2, 3]\n(\n(1, -2, nan),\n(40, 5, 6),\n)".toList := by decide +kernel

/-- an example call -/
example : ∃ w', writeMatrix intStr ["m.txt".toList] ⟨[1, 1], [some 7], rfl⟩ false
    (⟨fun p => if p = [] then some .dir else none, fun _ => 0, 0, []⟩ : World (List Char)) = (.ok true, w') := ⟨_, rfl⟩

/-! ### C59 -/

/-- Input that is not two-dimensional is rejected and nothing is written. -/
theorem C59_not_matrix (str : K → List Char) (file : Path) (mat : NDArr (Fl K)) (overwrite : Bool)
    (w : World (List Char)) (h : mat.shape.length ≠ 2) :
    writeMatrix str file mat overwrite w = (.error .assertion, w) := by
  unfold writeMatrix
  split
  · rename_i r c hs; rw [hs] at h; simp at h
  · rfl

/-- Without `overwrite` an existing file (or directory) is left alone. -/
theorem C59_exists (str : K → List Char) (file : Path) (mat : NDArr (Fl K)) (w : World (List Char))
    (h2 : mat.shape.length = 2) (h : w.fs file ≠ none) :
    writeMatrix str file mat false w = (.error .generic, w) := by
  unfold writeMatrix
  split
  · rw [if_pos ⟨Option.isSome_iff_ne_none.2 h, rfl⟩]
  · rename_i hs
    match hm : mat.shape, h2 with
    | [r, c], _ => exact absurd hm (hs r c)

/-- Otherwise, in an existing directory, the call returns `True`, the file then holds exactly the new text and every
other path is as before, also at every moment in between. -/
theorem C59_written (str : K → List Char) (file : Path) (mat : NDArr (Fl K)) (overwrite : Bool) (w : World (List Char))
    {r c : Nat} (h2 : mat.shape = [r, c]) (hdir : w.fs file.dropLast = some .dir) (hfile : w.fs file ≠ some .dir)
    (h : overwrite = true ∨ w.fs file = none) :
    ∃ w', writeMatrix str file mat overwrite w = (.ok true, w') ∧
      w'.fs file = some (.file (.full (matrixText str r c mat))) ∧ (∀ q, q ≠ file → w'.fs q = w.fs q) ∧
      ∀ fs ∈ w'.trace, fs ∈ w.trace ∨ ∀ q, q ≠ file → fs q = w.fs q := by
  have hw : writeMatrix str file mat overwrite w = (.ok true,
      (w.eff (w.fs.set file (some (.file .torn)))).eff ((w.eff (w.fs.set file (some (.file .torn)))).fs.set file
        (some (.file (.full (matrixText str r c mat)))))) := by
    unfold writeMatrix
    simp only [h2]
    rw [if_neg]
    · split
      · rename_i hh; exact absurd hh hfile
      · rfl
      · rename_i h3 h4; exact (h3 hdir).elim
    · rintro ⟨h3, h4⟩
      rcases h with h | h
      · rw [h] at h4; cases h4
      · rw [h] at h3; cases h3
  refine ⟨_, hw, by simp [World.eff, FS.set], fun q hq => by simp [World.eff, FS.set, hq], fun fs hf => ?_⟩
  simp only [World.eff, List.mem_append, List.mem_singleton] at hf
  rcases hf with (hf | rfl) | rfl
  · exact Or.inl hf
  · exact Or.inr fun q hq => by simp [FS.set, hq]
  · exact Or.inr fun q hq => by simp [FS.set, hq]

/-- In every case only the named file can change, and a failing call changes nothing. -/
theorem C59_failing (str : K → List Char) (file : Path) (mat : NDArr (Fl K)) (overwrite : Bool)
    (w w' : World (List Char)) (e : Err) (h : writeMatrix str file mat overwrite w = (.error e, w')) : w' = w := by
  unfold writeMatrix at h
  split at h
  · split_ifs at h
    · simp only [Prod.mk.injEq] at h; exact h.2.symm
    · split at h
      · simp only [Prod.mk.injEq] at h; exact h.2.symm
      · simp only [Prod.mk.injEq] at h; cases h.1
      · simp only [Prod.mk.injEq] at h; exact h.2.symm
  · simp only [Prod.mk.injEq] at h; exact h.2.symm

end Props
