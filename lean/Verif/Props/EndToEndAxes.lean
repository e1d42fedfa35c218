import Verif.Props.EndToEnd

/-!
# The public methods, end to end: C75, the spellings of `avg_axis`
-/

set_option linter.unusedSectionVars false

namespace Props
open Np NDArr Spec Model Lemmas

variable {K : Type} [Field K] [LinearOrder K] [IsStrictOrderedRing K] [FloorSemiring K]
variable {A X : Type} {C : Cls} {I : ArgInfo A} {P : Prims X (PyVal K) A}
  {mids : FS (PyVal K) → Path → List (FS (PyVal K))} {c : Cfg K} {obs : X → NDArr (Fl K)} {emb : A → Arg K}

/-- the axes an attribute `avg_axis` selects in an array of rank `n`: `None` all, an integer one, a tuple its entries -/
inductive Selects (n : Nat) : PyAxis → List Nat → Prop
  | none : Selects n .none (List.range n)
  | int {i : Int} (h : AxisOK n i) : Selects n (.int i) [axisNum n i]
  | tuple {l : List Int} (h : AxesOK n l) : Selects n (.tuple l) (l.map (axisNum n))

/-- **C75**, any class: every legal spelling of `avg_axis` averages over the axes it selects. -/
theorem C75_axis_spelling (hP : Shared c obs emb P) {o : Obj X} (hb : o.boot = .none) {w0 : World (PyVal K)}
    {f : NDArr (Fl K)} (hf : result C I P mids (.slot .fDeterm) (unsaved o) w0 = .ok (some (.num f)))
    (hsh : f.shape = (obs o.ext).shape) {S : List Nat} (hS : Selects f.shape.length o.avg S) (w : World (PyVal K)) :
    ∃ e, result C I P mids (.slot .error) (unsaved o) w = .ok (some (.num e)) ∧ e.shape = dropAxes S f.shape ∧
      ∀ k, InB e.shape k → IsAvg c.skipNan ((pairsAt f (obs o.ext) S k).map (both fun x y => x - y)) (e.get k) := by
  obtain ⟨axes, h1, h2, h3⟩ : ∃ axes, axisArg o.avg = .ok axes ∧ OptOK f.shape.length axes ∧
      nums f.shape.length axes = S := by
    generalize o.avg = av at hS
    cases hS with
    | none => exact ⟨none, rfl, trivial, rfl⟩
    | int h => exact ⟨some [_], rfl, ⟨by simpa using h, by simp⟩, rfl⟩
    | tuple h => exact ⟨some _, rfl, h, rfl⟩
  obtain ⟨e, a, q, r, e1, -, -, -, ⟨e2, -⟩, e3⟩ := C75_errors (mids := mids) hP hb h1 hf hsh h2 w
  rw [h3] at e2 e3
  exact ⟨e, e1, e2, fun k hk => (e3 k hk).1⟩

/-- **C75**, any class: an `avg_axis` left by a rejected setting (neither `None`, an integer nor a tuple) makes the
averaged metrics raise a `TypeError`. -/
theorem C75_axis_type (hP : Shared c obs emb P) {o : Obj X} (hb : o.boot = .none) {w0 : World (PyVal K)}
    {f : NDArr (Fl K)} (hf : result C I P mids (.slot .fDeterm) (unsaved o) w0 = .ok (some (.num f)))
    (hsh : f.shape = (obs o.ext).shape) (hav : (∃ l, o.avg = .list l) ∨ o.avg = .other) (w : World (PyVal K)) :
    result C I P mids (.slot .error) (unsaved o) w = .error .type := by
  obtain ⟨e, a, q, he, -⟩ := error_bodies hP hf hsh
  obtain ⟨n1, hn1⟩ := fixed_ok I (some "error".toList)
  rw [result_slot (s := .error) rfl hn1 (he w)]
  have hpost : slotPost P o.avg o.boot (.error : Slot A) = bootOrAvgP P o.avg o.boot .ok := rfl
  rw [hpost]
  simp only [bootOrAvgP, hb, if_true, Prog.run, hP.avg, basePrims]
  rcases hav with ⟨l, h⟩ | h <;> rw [h] <;> rfl

/-- **C75**, any class: a negative `boot_samples` passes the validation (it is an integer), but the bootstrapped metrics
then raise a `ValueError`, and one left by a rejected setting a `TypeError`. -/
theorem C75_negative_samples (hP : Shared c obs emb P) {o : Obj X} {n : Int}
    (hb : o.boot = .int n ∧ n < 0 ∨ o.boot = .other) {axes : Option (List Int)} (hax : axisArg o.avg = .ok axes)
    {w0 : World (PyVal K)} {f : NDArr (Fl K)}
    (hf : result C I P mids (.slot .fDeterm) (unsaved o) w0 = .ok (some (.num f)))
    (hsh : f.shape = (obs o.ext).shape) (w : World (PyVal K)) :
    result C I P mids (.slot .error) (unsaved o) w = .error (if o.boot = .other then .type else .value) := by
  obtain ⟨e, a, q, he, -⟩ := error_bodies hP hf hsh
  obtain ⟨n1, hn1⟩ := fixed_ok I (some "error".toList)
  rw [result_slot (s := .error) rfl hn1 (he w)]
  have hpost : slotPost P o.avg o.boot (.error : Slot A) = bootOrAvgP P o.avg o.boot .ok := rfl
  rw [hpost]
  rcases hb with ⟨h, hn⟩ | h
  · have hn' : ¬ 0 ≤ n := by omega
    simp only [bootOrAvgP, h, reduceCtorEq, if_false, Prog.run, hP.bootArr, basePrims, hax, bind, Except.bind, bootArg,
      hn']
    rfl
  · simp only [bootOrAvgP, h, reduceCtorEq, if_true, if_false, Prog.run, hP.bootArr, basePrims, hax, bind, Except.bind,
      bootArg]
    rfl

/-- an axis given as an integer, counted from the end -/
example : Selects 3 (.int (-1)) [2] ∧ Selects 3 (.tuple [0, -1]) [0, 2] ∧ Selects 3 .none [0, 1, 2] :=
  ⟨.int ⟨by decide, by decide⟩, .tuple ⟨by simp [AxisOK], by decide⟩, .none⟩

end Props
