import Verif.Props.EndToEndClasses
import Verif.Spec.BadAxes

/-!
# Averaging axes that do not exist or are given twice: C85
-/

set_option linter.unusedSectionVars false

namespace Props
open Np NDArr Spec Model Lemmas

variable {K : Type} [Field K] [LinearOrder K] [IsStrictOrderedRing K] [FloorSemiring K]
variable {A X : Type} {C : Cls} {I : ArgInfo A} {P : Prims X (PyVal K) A}
  {mids : FS (PyVal K) → Path → List (FS (PyVal K))} {c : Cfg K} {obs : X → NDArr (Fl K)} {emb : A → Arg K}

/-! ### averages -/

theorem normAxis_error {n : Nat} {ax : Int} (h : ¬ AxisOK n ax) : normAxis n ax = .error .axis := by
  unfold normAxis; exact if_neg h

theorem mapE_normAxis_error {n : Nat} {l : List Int} (h : ∃ x ∈ l, ¬ AxisOK n x) :
    mapE (normAxis n) l = .error .axis := by
  induction l with
  | nil => obtain ⟨x, hx, -⟩ := h; cases hx
  | cons y l ih =>
    by_cases hy : AxisOK n y
    · obtain ⟨x, hx, hne⟩ := h
      have hx' : x ∈ l := by
        rcases List.mem_cons.1 hx with rfl | hx
        · exact absurd hy hne
        · exact hx
      rw [mapE, normAxis_ok hy, ih ⟨x, hx', hne⟩]
    · rw [mapE, normAxis_error hy]

theorem normAxes_fault {n : Nat} {l : List Int} {e : Err} (h : axisFault n l e) : normAxes n (some l) = .error e := by
  rcases h with ⟨h, rfl⟩ | ⟨h, hd, rfl⟩
  · simp only [normAxes, mapE_normAxis_error h]; rfl
  · simp only [normAxes, mapE_normAxis_ok h, bind, Except.bind]
    rw [if_neg hd]

/-- bad axes have exactly one kind of error -/
theorem axisFault_of_bad {n : Nat} {l : List Int} (h : ¬ AxesOK n l) : ∃ e, axisFault n l e := by
  by_cases h1 : ∀ x ∈ l, AxisOK n x
  · refine ⟨.value, .inr ⟨h1, fun h2 => h ⟨h1, h2⟩, rfl⟩⟩
  · push Not at h1
    exact ⟨.axis, .inl ⟨h1, rfl⟩⟩

theorem average_fault (skip : Bool) (reps : Nat) (conf : K) (draw : Nat → Nat → Nat → Nat) {m : NDArr (Fl K)}
    {l : List Int} {e : Err} (h : axisFault m.shape.length l e) :
    bootOrAvg skip (some l) none reps conf draw m = .error e := by
  unfold bootOrAvg
  cases skip <;> simp only [reduceAxes, reduceAxesE, ndim, normAxes_fault h] <;> rfl

theorem avg_fault (hP : Shared c obs emb P) {s : Slot A} (hs : s.probOnly = false) {nm : Option Name}
    (hn : slotName I s = .ok nm) {o : Obj X} (hpost : slotPost P o.avg o.boot s = bootOrAvgP P o.avg o.boot .ok)
    {l : List Int} (hb : o.boot = .none) (hax : axisArg o.avg = .ok (some l)) {m : NDArr (Fl K)} {e : Err}
    (hbad : axisFault m.shape.length l e) {w : World (PyVal K)}
    (hbody : ∀ w, (slotBody C I P o.ext o.avg o.boot s).run none w = (.ok (.num m), w)) :
    result C I P mids (.slot s) (unsaved o) w = .error e := by
  rw [result_slot hs hn (hbody w), hpost, avg_run hP hb hax, average_fault _ _ _ _ hbad]
  rfl

/-- **C85**, every class, without bootstrapping: axes that do not exist raise `AxisError`, axes given twice raise
`ValueError`, for the errors, the root mean square error ... -/
theorem C85_errors (hP : Shared c obs emb P) {o : Obj X} {l : List Int} (hb : o.boot = .none)
    (hax : axisArg o.avg = .ok (some l)) {w0 : World (PyVal K)} {f : NDArr (Fl K)}
    (hf : result C I P mids (.slot .fDeterm) (unsaved o) w0 = .ok (some (.num f)))
    (hsh : f.shape = (obs o.ext).shape) {e : Err} (hbad : axisFault f.shape.length l e) (w : World (PyVal K)) :
    result C I P mids (.slot .error) (unsaved o) w = .error e ∧
    result C I P mids (.slot .abError) (unsaved o) w = .error e ∧
    result C I P mids (.slot .sqError) (unsaved o) w = .error e ∧
    result C I P mids .rmse (unsaved o) w = .error e := by
  obtain ⟨d, a, q, he, ha, hq, ⟨se, sa, sq⟩, -⟩ := error_bodies hP hf hsh
  obtain ⟨n1, hn1⟩ := fixed_ok I (some "error".toList)
  obtain ⟨n2, hn2⟩ := fixed_ok I (some "ab_error".toList)
  obtain ⟨n3, hn3⟩ := fixed_ok I (some "sq_error".toList)
  refine ⟨avg_fault (s := .error) hP rfl hn1 rfl hb hax (by rwa [se]) he,
    avg_fault (s := .abError) hP rfl hn2 rfl hb hax (by rwa [sa]) ha,
    avg_fault (s := .sqError) hP rfl hn3 rfl hb hax (by rwa [sq]) hq, ?_⟩
  have hn3' : slotName I (.sqError : Slot A) = .ok n3 := hn3
  have hq' : (sqBody C I P o.ext).run none w = (.ok (.num q), w) := hq w
  rw [result_eq]
  simp only [metricProg, hn3', Prog.callName]
  rw [run_call_none _ _ _ _ hq', avg_run hP hb hax, average_fault _ _ _ _ (by rwa [sq])]
  rfl

/-- **C85**, ... and the Brier score. -/
theorem C85_brier (hP : Shared c obs emb P) {o : Obj X} {a : A} {t : Thr K} (hemb : emb a = .thr t) (isOver : Bool)
    {l : List Int} (hb : o.boot = .none) (hax : axisArg o.avg = .ok (some l))
    {w0 : World (PyVal K)} {p : NDArr (Fl K)}
    (hp : result C I P mids (.slot (.cdf (overArg isOver a) (belowArg isOver a))) (unsaved o) w0 = .ok (some (.num p)))
    (ht : ThrOK t (obs o.ext).shape) (hsh : p.shape = (obs o.ext).shape) {e : Err}
    (hbad : axisFault (obs o.ext).shape.length l e) (w : World (PyVal K)) :
    result C I P mids (.slot (.brier (overArg isOver a) (belowArg isOver a))) (unsaved o) w = .error e := by
  obtain ⟨m, m1, m2, -⟩ := brier_body hP hemb isOver hp ht hsh
  obtain ⟨nm, hn⟩ := (cdf_runs hp).2.1
  obtain ⟨ps, hps⟩ := obArgs_of_cdf hn
  obtain ⟨nm', hn'⟩ := toName_ok hps (some "brier".toList)
  exact avg_fault (s := .brier (overArg isOver a) (belowArg isOver a)) hP rfl hn' rfl hb hax (by rwa [m2]) m1

/-! ### correlation and Brier decomposition -/

theorem filter_mem_length (n : Nat) (l : List Int) :
    ((((List.range n).map Int.ofNat).filter fun a => a ∉ l).length +
      (((List.range n).map Int.ofNat).filter fun a => a ∈ l).length) = n := by
  have := List.length_eq_length_filter_add (l := (List.range n).map Int.ofNat) (fun a => decide (a ∈ l))
  simp only [List.length_map, List.length_range] at this
  have e : (fun a : Int => !decide (a ∈ l)) = fun a => decide (a ∉ l) := by funext a; simp
  rw [e] at this
  omega

/-- a list that is as long as the set of its members among `0, ..., n - 1` -/
theorem legal_of_length {n : Nat} {l : List Int}
    (h : l.length = (((List.range n).map Int.ofNat).filter fun a => a ∈ l).length) :
    l.Nodup ∧ ∀ x ∈ l, ∃ b : Nat, x = (b : Int) ∧ b < n := by
  set F := ((List.range n).map Int.ofNat).filter fun a => a ∈ l with hF
  have hnd : F.Nodup := (List.nodup_range.map (fun a b h => by simpa using h)).filter _
  have hsub : F ⊆ l := by
    intro x hx
    have := (List.mem_filter.1 hx).2
    simpa using this
  have hsp : F.Subperm l := hnd.subperm hsub
  have hp : F.Perm l := hsp.perm_of_length_le (by omega)
  refine ⟨hp.nodup_iff.1 hnd, fun x hx => ?_⟩
  obtain ⟨b, hb, rfl⟩ := List.mem_map.1 (List.mem_filter.1 (hp.mem_iff.2 hx)).1
  exact ⟨b, rfl, by simpa using hb⟩

theorem workflow_axes {func : Nat → List (Fl K) → List (Fl K) → Except Err (List (Fl K))} {f o r : NDArr (Fl K)}
    {l : List Int} (h : specialWorkflow func f o (some l) = .ok r) :
    l.Nodup ∧ ∀ x ∈ l, ∃ b : Nat, x = (b : Int) ∧ b < o.shape.length := by
  unfold specialWorkflow at h
  split at h
  · cases h
  · simp only [resolveAxes, bind, Except.bind] at h
    split at h
    · cases h
    · rename_i v ht
      unfold transposeAx at ht
      split at ht
      · cases ht
      · rename_i hl
        rw [not_not, List.length_append] at hl
        have := filter_mem_length o.ndim l
        refine legal_of_length (n := o.ndim) ?_
        convert Nat.add_left_cancel (hl.trans this.symm) using 1

/-- **C85**, correlation and Brier decomposition, with or without bootstrapping: if a value comes back then the axes
exist and are distinct (and counted from the front, see C02). -/
theorem C85_corr (s : K → K) (skip : Bool) {f o : NDArr (Fl K)} {l : List Int} :
    (∀ r, corr s skip f o (some l) = .ok r → AxesOK o.shape.length l) ∧
    (∀ n reps conf draw r, corrBoot s skip f o (some l) n reps conf draw = .ok r → AxesOK o.shape.length l) ∧
    (∀ r, brierDecomp skip f o (some l) = .ok r → AxesOK o.shape.length l) ∧
    (∀ n reps conf draw r, brierDecompBoot skip f o (some l) n reps conf draw = .ok r → AxesOK o.shape.length l) := by
  have key : ∀ {func : Nat → List (Fl K) → List (Fl K) → Except Err (List (Fl K))} {r : NDArr (Fl K)},
      specialWorkflow func f o (some l) = .ok r → AxesOK o.shape.length l := by
    intro func r h
    obtain ⟨h1, h2⟩ := workflow_axes h
    refine ⟨fun x hx => ?_, ?_⟩
    · obtain ⟨b, rfl, hb⟩ := h2 x hx
      exact ⟨by omega, by exact_mod_cast hb⟩
    · refine h1.map_on fun x hx y hy hxy => ?_
      obtain ⟨b, rfl, hb⟩ := h2 x hx
      obtain ⟨d, rfl, hd⟩ := h2 y hy
      have e : ∀ b : Nat, axisNum o.shape.length (b : Int) = b := fun b => by unfold axisNum; rw [if_neg (by omega)]; rfl
      rw [e, e] at hxy
      rw [hxy]
  refine ⟨fun r h => key h, fun n reps conf draw r h => key h, fun r h => ?_, fun n reps conf draw r h => ?_⟩
  · unfold brierDecomp at h
    cases hw : specialWorkflow (fun _ => funcBrierDecomp skip 19) f o (some l) with
    | error e => rw [hw] at h; cases h
    | ok r' => exact key hw
  · unfold brierDecompBoot at h
    cases hw : specialWorkflow (fun i => funcBrierDecompBoot skip 19 n reps conf (draw i)) f o (some l) with
    | error e => rw [hw] at h; cases h
    | ok r' => exact key hw

/-! ### bootstrapping, reliability diagrams, binned spread and skill -/

theorem moveaxis_ok_iff {α : Type} [Inhabited α] {a : NDArr α} {src : Int} {t : Nat} :
    (∃ b, a.moveaxis src t = .ok b) ↔ AxisOK a.shape.length src ∧ t < a.shape.length := by
  unfold moveaxis
  constructor
  · rintro ⟨b, h⟩
    by_cases h1 : AxisOK a.ndim src
    · by_cases h2 : AxisOK a.ndim t
      · refine ⟨h1, ?_⟩
        have := h2.2
        simp only [ndim] at this
        exact_mod_cast this
      · rw [normAxis_ok h1, normAxis_error h2] at h; cases h
    · rw [normAxis_error h1] at h; cases h
  · rintro ⟨h1, h2⟩
    have h1' : AxisOK a.ndim src := h1
    have h2' : AxisOK a.ndim (t : Int) := ⟨by simp only [ndim]; omega, by simp only [ndim]; exact_mod_cast h2⟩
    rw [normAxis_ok h1', normAxis_ok h2']
    exact ⟨_, rfl⟩

theorem moveaxis_error {α : Type} [Inhabited α] {a : NDArr α} {src : Int} {t : Nat} {e : Err}
    (h : a.moveaxis src t = .error e) : e = .axis := by
  unfold moveaxis at h
  by_cases h1 : AxisOK a.ndim src
  · by_cases h2 : AxisOK a.ndim t
    · rw [normAxis_ok h1, normAxis_ok h2] at h; cases h
    · rw [normAxis_ok h1, normAxis_error h2] at h; cases h; rfl
  · rw [normAxis_error h1] at h; cases h; rfl

theorem moveaxis_ndim {α : Type} [Inhabited α] {a b : NDArr α} {src : Int} {t : Nat} (h : a.moveaxis src t = .ok b) :
    b.shape.length = a.shape.length := by
  obtain ⟨h1, h2⟩ := moveaxis_ok_iff.1 ⟨b, h⟩
  unfold moveaxis at h
  have h1' : AxisOK a.ndim src := h1
  have h2' : AxisOK a.ndim (t : Int) := ⟨by simp only [ndim]; omega, by simp only [ndim]; exact_mod_cast h2⟩
  rw [normAxis_ok h1', normAxis_ok h2'] at h
  simp only [bind, Except.bind, pure, Except.pure, Except.ok.injEq] at h
  rw [← h]
  have e : axisNum a.ndim (t : Int) = t := by unfold axisNum; rw [if_neg (by omega)]; rfl
  have hp := moveOrder_perm (n := a.ndim) (s := axisNum a.ndim src) (d := axisNum a.ndim t) (axisNum_lt h1')
    (by rw [e]; exact h2)
  have := hp.length_eq
  rw [List.length_range] at this
  exact (by simp [transpose] : (a.transpose _).shape.length = _).trans this

/-- the loop accepts an axis if it already is in its place or if it exists -/
theorem moveLoop_ok_iff {α : Type} [Inhabited α] (l : List Int) (t : Nat) (a : NDArr α) :
    (∃ p, moveLoop l t a = .ok p) ↔
      ∀ j, (h : j < l.length) → l[j] = ((t + j : Nat) : Int) ∨ (AxisOK a.shape.length l[j] ∧ t + j < a.shape.length) := by
  induction l generalizing t a with
  | nil => simp [moveLoop]
  | cons ax l ih =>
    have hsplit : (∀ j, (h : j < (ax :: l).length) → (ax :: l)[j] = ((t + j : Nat) : Int) ∨
          (AxisOK a.shape.length (ax :: l)[j] ∧ t + j < a.shape.length)) ↔
        (ax = (t : Int) ∨ (AxisOK a.shape.length ax ∧ t < a.shape.length)) ∧
        ∀ j, (h : j < l.length) → l[j] = ((t + 1 + j : Nat) : Int) ∨
          (AxisOK a.shape.length l[j] ∧ t + 1 + j < a.shape.length) := by
      constructor
      · intro h
        refine ⟨h 0 (Nat.zero_lt_succ _), fun j hj => ?_⟩
        have := h (j + 1) (by simpa using hj)
        simp only [List.getElem_cons_succ] at this
        rwa [show t + (j + 1) = t + 1 + j by omega] at this
      · rintro ⟨h0, h⟩ j hj
        cases j with
        | zero => exact h0
        | succ j =>
          have := h j (by simpa using hj)
          simp only [List.getElem_cons_succ]
          rwa [show t + (j + 1) = t + 1 + j by omega]
    rw [hsplit, moveLoop]
    by_cases hax : ax = (t : Int)
    · rw [if_neg (not_not.2 hax), ih]
      simp [hax]
    · rw [if_pos hax]
      cases hm : a.moveaxis ax t with
      | error e =>
        simp only [reduceCtorEq, exists_false, false_iff, not_and]
        rintro (h | h)
        · exact absurd h hax
        · obtain ⟨b, hb⟩ := moveaxis_ok_iff.2 h
          rw [hm] at hb; cases hb
      | ok b =>
        simp only
        rw [ih, moveaxis_ndim hm]
        have := moveaxis_ok_iff.1 ⟨b, hm⟩
        simp [this.1, this.2]

theorem moveLoop_error {α : Type} [Inhabited α] {l : List Int} {t : Nat} {a : NDArr α} {e : Err}
    (h : moveLoop l t a = .error e) : e = .axis := by
  induction l generalizing t a with
  | nil => cases h
  | cons ax l ih =>
    rw [moveLoop] at h
    split at h
    · split at h
      · rename_i e' he
        cases h
        exact moveaxis_error he
      · exact ih h
    · exact ih h

/-- **C85**, exactly which axes the three functions that move axes (`boot_arr`, `_reliability_create_split`,
`_binned_spread_skill_create_split`) let pass: after sorting, every axis either exists or is equal to its own place
in the list. Everything else is an `AxisError`. -/
theorem C85_accepted {α : Type} [Inhabited α] (a : NDArr α) (l : List Int) :
    ((∃ p, moveSampleAxes a (some l) = .ok p) ↔
      ∀ j, (h : j < (npSortInt l).length) → (npSortInt l)[j] = (j : Int) ∨
        (AxisOK a.shape.length (npSortInt l)[j] ∧ j < a.shape.length)) ∧
    ∀ e, moveSampleAxes a (some l) = .error e → e = .axis := by
  have h := moveLoop_ok_iff (npSortInt l) 0 a
  simp only [Nat.zero_add] at h
  unfold moveSampleAxes resolveAxes
  constructor
  · rw [← h]
    cases moveLoop (npSortInt l) 0 a with
    | error e => simp
    | ok p => simp
  · intro e he
    cases hm : moveLoop (npSortInt l) 0 a with
    | error e' =>
      rw [hm] at he
      cases he
      exact moveLoop_error hm
    | ok p => rw [hm] at he; cases he

/-- **C85**, what is true with bootstrapping: axes that do not exist raise `AxisError`, provided no more axes are given
than the array has. -/
theorem C85_boot_partial {m : NDArr (Fl K)} {l : List Int} (hl : l.length ≤ m.shape.length)
    (hbad : ∃ x ∈ l, ¬ AxisOK m.shape.length x) (skip : Bool) (n reps : Nat) (conf : K)
    (draw : Nat → Nat → Nat → Nat) : bootOrAvg skip (some l) (some n) reps conf draw m = .error .axis := by
  have h := C85_accepted m l
  have hno : ¬ ∃ p, moveSampleAxes m (some l) = .ok p := by
    rw [h.1]
    intro hall
    obtain ⟨x, hx, hxb⟩ := hbad
    have hp := npSortInt_perm l
    obtain ⟨j, hj, rfl⟩ := List.getElem_of_mem (hp.mem_iff.2 hx)
    have hjl : j < m.shape.length := by
      have := hp.length_eq
      omega
    rcases hall j hj with h1 | h1
    · apply hxb
      rw [h1]
      exact ⟨by omega, by exact_mod_cast hjl⟩
    · exact hxb h1.1
  unfold bootOrAvg bootArr
  cases hm : moveSampleAxes m (some l) with
  | error e => rw [h.2 e hm]; rfl
  | ok p => exact absurd ⟨p, hm⟩ hno

/-! ### concrete cases -/

/-- one axis, two entries -/
def lineX : DetX ℚ := ⟨⟨[2], [some 1, some 0], rfl⟩, ⟨[2], [some 1, some 1], rfl⟩⟩

/-- The claim "axes that do not exist or are given twice raise" is false with bootstrapping. The axes `(0, 0)` of a
2 by 2 array, which raise `ValueError` without bootstrapping, are taken as both axes: one interval comes back instead
of two. The axes `(0, 1)` of an array with one axis, which raise `AxisError` without bootstrapping, give an interval. -/
theorem C85_false :
    (errOf (result .determ intInfo detP noMids (.slot .error) ⟨.tuple [0, 0], .none, .none, some true, detX⟩ world0) =
        some .value ∧
      (numOf (result .determ intInfo detP noMids (.slot .error) ⟨.tuple [0, 0], .int 4, .none, some true, detX⟩ world0)).map
        Prod.fst = some [3]) ∧
    (errOf (result .determ intInfo detP noMids (.slot .error) ⟨.tuple [0, 1], .none, .none, some true, lineX⟩ world0) =
        some .axis ∧
      (numOf (result .determ intInfo detP noMids (.slot .error) ⟨.tuple [0, 1], .int 2, .none, some true, lineX⟩ world0)).map
        Prod.fst = some [3]) := by
  decide +kernel

/-- The hypotheses can be met. -/
example : axisFault detX.f.shape.length [0, 0] .value ∧ axisFault detX.f.shape.length [0, 2] .axis ∧
    axisFault lineX.f.shape.length [0, 1] .axis := by
  refine ⟨.inr ⟨?_, by decide, rfl⟩, .inl ⟨⟨2, by simp, ?_⟩, rfl⟩, .inl ⟨⟨1, by simp, ?_⟩, rfl⟩⟩
  · simp [AxisOK, detX]
  · simp [AxisOK, detX]
  · simp [AxisOK, lineX]

end Props
