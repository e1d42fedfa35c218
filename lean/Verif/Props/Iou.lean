import Verif.Model.Iou
import Verif.Spec.Iou
import Verif.Props.Rank

/-!
# Intersection over union and ROC input: C19, C20, C54
-/

set_option linter.unusedSectionVars false

namespace Props
open Np NDArr Spec Model Lemmas

variable {K : Type} [Field K] [LinearOrder K] [IsStrictOrderedRing K]

theorem numOf_cons {α : Type} (a : α) (l : List α) (p : α → Prop) :
    (p a → numOf (a :: l) p = numOf l p + 1) ∧ (¬ p a → numOf (a :: l) p = numOf l p) := by
  classical
  unfold numOf
  rw [List.filter_cons]
  exact ⟨fun h => by rw [if_pos (by simpa using h), List.length_cons],
    fun h => by rw [if_neg (by simpa using h)]⟩

theorem numOf_mono {α : Type} (l : List α) {p q : α → Prop} (h : ∀ x ∈ l, p x → q x) :
    numOf l p ≤ numOf l q := by
  induction l with
  | nil => exact le_rfl
  | cons a l ih =>
    have := ih fun x hx => h x (List.mem_cons_of_mem _ hx)
    by_cases hp : p a
    · rw [(numOf_cons a l p).1 hp, (numOf_cons a l q).1 (h a (by simp) hp)]; omega
    · rw [(numOf_cons a l p).2 hp]
      by_cases hq : q a
      · rw [(numOf_cons a l q).1 hq]; omega
      · rw [(numOf_cons a l q).2 hq]; omega

theorem numOf_lt {α : Type} (l : List α) {p q : α → Prop} (h : ∀ x ∈ l, p x → q x) {x : α}
    (hx : x ∈ l) (hq : q x) (hp : ¬ p x) : numOf l p < numOf l q := by
  induction l with
  | nil => cases hx
  | cons a l ih =>
    have hl : ∀ x ∈ l, p x → q x := fun x hx => h x (List.mem_cons_of_mem _ hx)
    rcases List.mem_cons.1 hx with rfl | hx'
    · rw [(numOf_cons _ l p).2 hp, (numOf_cons _ l q).1 hq]
      have := numOf_mono l hl
      omega
    · have := ih hl hx'
      by_cases hpa : p a
      · rw [(numOf_cons a l p).1 hpa, (numOf_cons a l q).1 (h a (by simp) hpa)]; omega
      · rw [(numOf_cons a l p).2 hpa]
        by_cases hqa : q a
        · rw [(numOf_cons a l q).1 hqa]; omega
        · rw [(numOf_cons a l q).2 hqa]; omega

/-- what an intersection-over-union value says about the two events -/
theorem isIou_facts {α : Type} {l : List α} {E F : α → Prop} {v : Fl K} (h : IsIou l E F v)
    (hne : ∃ x ∈ l, E x ∨ F x) :
    ∃ w, v = some w ∧ 0 ≤ w ∧ w ≤ 1 ∧ (w = 1 ↔ ∀ x ∈ l, E x ↔ F x) ∧
      (w = 0 ↔ ∀ x ∈ l, ¬ (E x ∧ F x)) := by
  classical
  refine ⟨_, h.2 hne, ?_⟩
  have hi : numOf l (fun x => E x ∧ F x) ≤ numOf l (fun x => E x ∨ F x) :=
    numOf_mono l fun x _ hx => Or.inl hx.1
  have hu : 0 < numOf l (fun x => E x ∨ F x) := by
    obtain ⟨x, hx, hE⟩ := hne
    unfold numOf
    exact List.length_pos_of_mem (List.mem_filter.2 ⟨hx, by simpa using hE⟩)
  have huK : (0 : K) < (numOf l (fun x => E x ∨ F x) : K) := by exact_mod_cast hu
  refine ⟨by positivity, ?_, ?_, ?_⟩
  · rw [div_le_one huK]; exact_mod_cast hi
  · rw [div_eq_one_iff_eq huK.ne']
    constructor
    · intro he x hx
      have he' : numOf l (fun x => E x ∧ F x) = numOf l (fun x => E x ∨ F x) := by exact_mod_cast he
      by_contra hcon
      have : numOf l (fun x => E x ∧ F x) < numOf l (fun x => E x ∨ F x) :=
        numOf_lt l (fun x _ hx => Or.inl hx.1) hx (by tauto) (by tauto)
      omega
    · intro hall
      have : numOf l (fun x => E x ∧ F x) = numOf l (fun x => E x ∨ F x) := by
        unfold numOf
        congr 1
        apply List.filter_congr
        intro x hx
        have := hall x hx
        simp only [decide_eq_decide]
        tauto
      exact_mod_cast this
  · rw [div_eq_zero_iff, or_iff_left huK.ne']
    constructor
    · intro he x hx hEF
      have he' : numOf l (fun x => E x ∧ F x) = 0 := by exact_mod_cast he
      unfold numOf at he'
      rw [List.length_eq_zero_iff, List.filter_eq_nil_iff] at he'
      exact he' x hx (by simpa using hEF)
    · intro hall
      have : numOf l (fun x => E x ∧ F x) = 0 := by
        unfold numOf
        rw [List.length_eq_zero_iff, List.filter_eq_nil_iff]
        intro x hx
        simpa using hall x hx
      exact_mod_cast this

theorem countTrue_map {α : Type} (l : List α) (g : α → Bool) (p : α → Prop)
    (h : ∀ x ∈ l, g x = true ↔ p x) : countTrue (l.map g) = numOf l p := by
  classical
  unfold countTrue numOf
  rw [List.countP_map, List.countP_eq_length_filter]
  congr 1
  apply List.filter_congr
  intro x hx
  rw [Bool.eq_iff_iff]
  simpa using h x hx

/-- `_iou` over explicit axes: at each kept position, the intersection over union of the two events over
the positions merged there. -/
theorem iou_spec (fb ob : NDArr Bool) (hsh : fb.shape = ob.shape) {l : List Int}
    (hl : OptOK fb.shape.length (some l)) :
    ∃ r, iou (K := K) fb ob (some l) = .ok r ∧
      r.shape = dropAxes (l.map (axisNum fb.shape.length)) fb.shape ∧
      ∀ k, InB (dropAxes (l.map (axisNum fb.shape.length)) fb.shape) k →
        IsIou (fiberIdx fb.shape (l.map (axisNum fb.shape.length)) k)
          (fun i => fb.get i = true) (fun i => ob.get i = true) (r.get k) := by
  obtain ⟨a, a1, a2, a3⟩ := zipWith_spec (fun a b => a && b) fb ob hsh
  obtain ⟨b, b1, b2, b3⟩ := zipWith_spec (fun a b => a || b) fb ob hsh
  obtain ⟨i, i1, i2, i3⟩ := reduceAxes_spec countTrue a (axes := some l) (by rw [a2]; exact hl)
  obtain ⟨u, u1, u2, u3⟩ := reduceAxes_spec countTrue b (axes := some l) (by rw [b2]; exact hl)
  rw [a2] at i2 i3
  rw [b2] at u2 u3
  have hn : nums fb.shape.length (some l) = l.map (axisNum fb.shape.length) := rfl
  rw [hn] at i2 i3 u2 u3
  obtain ⟨r, r1, r2, r3⟩ := zipWith_spec
    (fun (a b : Nat) => Fl.div (some (a : K)) (some (b : K))) i u (i2.trans u2.symm)
  refine ⟨r, ?_, r2.trans i2, ?_⟩
  · unfold iou
    simp only [a1, b1, bind, Except.bind, i1, u1]
    exact r1
  · intro k hk
    rw [r3 k (i2 ▸ hk), i3 k hk, u3 k hk]
    have e1 : countTrue (fiber a (l.map (axisNum fb.shape.length)) k) =
        numOf (fiberIdx fb.shape (l.map (axisNum fb.shape.length)) k)
          (fun x => fb.get x = true ∧ ob.get x = true) := by
      unfold fiber
      rw [a2]
      apply countTrue_map
      intro x hx
      rw [a3 x (mem_fiberIdx.1 hx).1, Bool.and_eq_true]
    have e2 : countTrue (fiber b (l.map (axisNum fb.shape.length)) k) =
        numOf (fiberIdx fb.shape (l.map (axisNum fb.shape.length)) k)
          (fun x => fb.get x = true ∨ ob.get x = true) := by
      unfold fiber
      rw [b2]
      apply countTrue_map
      intro x hx
      rw [b3 x (mem_fiberIdx.1 hx).1, Bool.or_eq_true]
    rw [e1, e2]
    refine ⟨?_, ?_⟩
    · intro hall
      have : numOf (fiberIdx fb.shape (l.map (axisNum fb.shape.length)) k)
          (fun x => fb.get x = true ∨ ob.get x = true) = 0 := by
        unfold numOf
        rw [List.length_eq_zero_iff, List.filter_eq_nil_iff]
        intro x hx
        have := hall x hx
        simp only [decide_eq_true_eq]
        tauto
      simp [Fl.div, this]
    · rintro ⟨x, hx, hxE⟩
      have : numOf (fiberIdx fb.shape (l.map (axisNum fb.shape.length)) k)
          (fun x => fb.get x = true ∨ ob.get x = true) ≠ 0 := by
        unfold numOf
        intro h0
        rw [List.length_eq_zero_iff, List.filter_eq_nil_iff] at h0
        exact h0 x hx (by simpa using hxE)
      simp [Fl.div, this]

/-- `_iou` without axis: `ZeroDivisionError` if neither event occurs anywhere, else the intersection
over union over all positions. -/
theorem iou_all (fb ob : NDArr Bool) (hsh : fb.shape = ob.shape) :
    ((∀ i ∈ allIdx fb.shape, fb.get i ≠ true ∧ ob.get i ≠ true) →
      iou (K := K) fb ob none = .error .generic) ∧
    ((∃ i ∈ allIdx fb.shape, fb.get i = true ∨ ob.get i = true) →
      ∃ r, iou (K := K) fb ob none = .ok r ∧ r.shape = [] ∧
        IsIou (allIdx fb.shape) (fun i => fb.get i = true) (fun i => ob.get i = true) (r.get [])) := by
  obtain ⟨a, a1, a2, a3⟩ := zipWith_spec (fun a b => a && b) fb ob hsh
  obtain ⟨b, b1, b2, b3⟩ := zipWith_spec (fun a b => a || b) fb ob hsh
  have e1 : countTrue a.data =
      numOf (allIdx fb.shape) (fun x => fb.get x = true ∧ ob.get x = true) := by
    rw [data_eq a, a2]
    apply countTrue_map
    intro x hx
    rw [a3 x (mem_allIdx.1 hx), Bool.and_eq_true]
  have e2 : countTrue b.data =
      numOf (allIdx fb.shape) (fun x => fb.get x = true ∨ ob.get x = true) := by
    rw [data_eq b, b2]
    apply countTrue_map
    intro x hx
    rw [b3 x (mem_allIdx.1 hx), Bool.or_eq_true]
  refine ⟨?_, ?_⟩
  · intro hall
    have : numOf (allIdx fb.shape) (fun x => fb.get x = true ∨ ob.get x = true) = 0 := by
      unfold numOf
      rw [List.length_eq_zero_iff, List.filter_eq_nil_iff]
      intro x hx
      have := hall x hx
      simp only [decide_eq_true_eq]
      tauto
    unfold iou
    simp only [a1, b1, bind, Except.bind, e2, this, if_true]
  · rintro ⟨x, hx, hxE⟩
    have : numOf (allIdx fb.shape) (fun x => fb.get x = true ∨ ob.get x = true) ≠ 0 := by
      unfold numOf
      intro h0
      rw [List.length_eq_zero_iff, List.filter_eq_nil_iff] at h0
      exact h0 x hx (by simpa using hxE)
    refine ⟨full [] (some ((countTrue a.data : K) / (countTrue b.data : K))), ?_, rfl, ?_⟩
    · unfold iou
      simp only [a1, b1, bind, Except.bind]
      rw [if_neg (by rw [e2]; exact this)]
      rfl
    · rw [get_full _ List.Forall₂.nil, e1, e2]
      refine ⟨fun hall => ?_, fun _ => rfl⟩
      have := hall x hx
      tauto

theorem isIou_congr {α : Type} {l : List α} {E F E' F' : α → Prop} {v : Fl K} (hE : ∀ x ∈ l, E x ↔ E' x)
    (hF : ∀ x ∈ l, F x ↔ F' x) (h : IsIou l E F v) : IsIou l E' F' v := by
  classical
  have hn : ∀ p q : α → Prop, (∀ x ∈ l, p x ↔ q x) → numOf l p = numOf l q := by
    intro p q hpq
    unfold numOf
    exact congrArg List.length (List.filter_congr fun x hx => by simp [hpq x hx])
  refine ⟨fun hall => h.1 fun x hx => ?_, fun ⟨x, hx, h1⟩ => ?_⟩
  · rw [hE x hx, hF x hx]; exact hall x hx
  · rw [h.2 ⟨x, hx, by rw [hE x hx, hF x hx]; exact h1⟩,
      hn _ _ (fun x hx => by rw [hE x hx, hF x hx]), hn (fun x => E x ∨ F x) _ (fun x hx => by rw [hE x hx, hF x hx])]

/-- **C19** for the deterministic metric over explicit averaging axes: at each kept position the value is the number of
positions merged there that show the event in both arrays, divided by the number of those that show it in one: NaN when
there are none, otherwise a number in `[0,1]`, 1 exactly when the event sets coincide, 0 exactly when they are disjoint.
A missing value never shows the event. -/
theorem C19_determ_partial (f o : NDArr (Fl K)) (hsh : f.shape = o.shape) {l : List Int}
    (hl : OptOK f.shape.length (some l)) (t : Thr K) (ht : ThrOK t f.shape) (isOver : Bool) :
    let E : NDArr (Fl K) → List Nat → Prop := fun a i =>
      if isOver then LtP (thrAt t i) (a.get i) else LtP (a.get i) (thrAt t i)
    ∃ r, iouDeterm f o (some l) (if isOver then some t else none) (if isOver then none else some t) =
        .ok r ∧ r.shape = dropAxes (l.map (axisNum f.shape.length)) f.shape ∧
      ∀ k, InB (dropAxes (l.map (axisNum f.shape.length)) f.shape) k →
        let P := fiberIdx f.shape (l.map (axisNum f.shape.length)) k
        IsIou P (E f) (E o) (r.get k) ∧
        ((∀ i ∈ P, ¬ E f i ∧ ¬ E o i) → r.get k = none) ∧
        ((∃ i ∈ P, E f i ∨ E o i) → ∃ w, r.get k = some w ∧ 0 ≤ w ∧ w ≤ 1 ∧
          (w = 1 ↔ ∀ i ∈ P, E f i ↔ E o i) ∧ (w = 0 ↔ ∀ i ∈ P, ¬ (E f i ∧ E o i))) := by
  intro E
  -- the comparison used
  set cmp : Fl K → Fl K → Bool := if isOver then fun x v => Fl.lt v x else Fl.lt with hcmp
  obtain ⟨fb, f1, f2, f3⟩ := cmpThr_spec cmp f t ht
  obtain ⟨ob, o1, o2, o3⟩ := cmpThr_spec cmp o t (hsh ▸ ht)
  have hE : ∀ (a : NDArr (Fl K)) i, cmp (a.get i) (thrAt t i) = true ↔ E a i := by
    intro a i
    cases isOver
    · simp only [hcmp, E, Bool.false_eq_true, if_false]; exact lt_iff_LtP _ _
    · simp only [hcmp, E, if_true]; exact lt_iff_LtP _ _
  have hfo : fb.shape = ob.shape := by rw [f2, o2, hsh]
  obtain ⟨r, r1, r2, r3⟩ := iou_spec (K := K) fb ob hfo (l := l) (by rw [f2]; exact hl)
  rw [f2] at r2 r3
  refine ⟨r, ?_, r2, ?_⟩
  · unfold iouDeterm
    rw [if_pos hsh]
    cases isOver
    · simp only [hcmp, Bool.false_eq_true, if_false] at f1 o1 ⊢
      simp only [f1, o1, bind, Except.bind]
      exact r1
    · simp only [hcmp, if_true] at f1 o1 ⊢
      simp only [f1, o1, bind, Except.bind]
      exact r1
  · intro k hk P
    have hP : ∀ i ∈ P, (fb.get i = true ↔ E f i) ∧ (ob.get i = true ↔ E o i) := by
      intro i hi
      have hi' := (mem_fiberIdx.1 hi).1
      rw [f3 i hi', o3 i (hsh ▸ hi'), hE, hE]
      exact ⟨Iff.rfl, Iff.rfl⟩
    refine ⟨isIou_congr (fun i hi => (hP i hi).1) (fun i hi => (hP i hi).2) (r3 k hk), ?_, ?_⟩
    · intro hall
      exact (r3 k hk).1 fun i hi => by
        simp only [(hP i hi).1, (hP i hi).2]; exact hall i hi
    · rintro ⟨i, hi, hEi⟩
      obtain ⟨w, w1, w2, w3, w4, w5⟩ := isIou_facts (r3 k hk)
        ⟨i, hi, by simp only [(hP i hi).1, (hP i hi).2]; exact hEi⟩
      refine ⟨w, w1, w2, w3, w4.trans ?_, w5.trans ?_⟩
      · exact forall₂_congr fun j hj => by simp only [(hP j hj).1, (hP j hj).2]
      · exact forall₂_congr fun j hj => by simp only [(hP j hj).1, (hP j hj).2]

theorem iou_comm (fb ob : NDArr Bool) (axis : Option (List Int)) :
    iou (K := K) fb ob axis = iou ob fb axis := by
  unfold iou
  have h1 : ∀ g : Bool → Bool → Bool, (∀ a b, g a b = g b a) → zipWith g fb ob = zipWith g ob fb := by
    intro g hg
    rw [zipWith_swap]
    congr 1
    funext a b
    exact hg b a
  rw [h1 (fun a b => a && b) (fun a b => Bool.and_comm a b),
    h1 (fun a b => a || b) (fun a b => Bool.or_comm a b)]

/-- **C19**, symmetry: swapping forecast and observation changes nothing (results and errors), for every
threshold and averaging choice. -/
theorem C19_symmetric_partial (f o : NDArr (Fl K)) (axis : Option (List Int))
    (over below : Option (Thr K)) : iouDeterm f o axis over below = iouDeterm o f axis over below := by
  unfold iouDeterm
  by_cases h : f.shape = o.shape
  · rw [if_pos h, if_pos h.symm]
    -- both comparisons of a threshold fail or succeed together
    have key : ∀ (cmp : Fl K → Fl K → Bool) (t : Thr K),
        (cmpThr cmp f t >>= fun fb => cmpThr cmp o t >>= fun ob => iou (K := K) fb ob axis) =
        (cmpThr cmp o t >>= fun fb => cmpThr cmp f t >>= fun ob => iou (K := K) fb ob axis) := by
      intro cmp t
      cases t with
      | scalar v => exact iou_comm _ _ axis
      | other => rfl
      | array a =>
        simp only [cmpThr, zipWith_bc, ← h]
        cases bcShape f.shape a.shape with
        | none => rfl
        | some s => exact iou_comm _ _ axis
    cases over with
    | none => cases below with
      | none => rfl
      | some b => exact key _ b
    | some t => cases below with
      | none => exact key _ t
      | some b => rfl
  · rw [if_neg h, if_neg (fun h' => h h'.symm)]

/-- both arrays compared with the threshold, over all positions -/
theorem iouDeterm_all (f o : NDArr (Fl K)) (hsh : f.shape = o.shape) (t : Thr K) (ht : ThrOK t f.shape) (isOver : Bool) :
    let E : NDArr (Fl K) → List Nat → Prop := fun a i =>
      if isOver then LtP (thrAt t i) (a.get i) else LtP (a.get i) (thrAt t i)
    ((∀ i, InB f.shape i → ¬ E f i ∧ ¬ E o i) →
      iouDeterm f o none (if isOver then some t else none) (if isOver then none else some t) = .error .generic) ∧
    ((∃ i, InB f.shape i ∧ (E f i ∨ E o i)) →
      ∃ r, iouDeterm f o none (if isOver then some t else none) (if isOver then none else some t) = .ok r ∧ r.shape = [] ∧
        IsIou (allIdx f.shape) (E f) (E o) (r.get [])) := by
  intro E
  set cmp : Fl K → Fl K → Bool := if isOver then fun x v => Fl.lt v x else Fl.lt with hcmp
  obtain ⟨fb, f1, f2, f3⟩ := cmpThr_spec cmp f t ht
  obtain ⟨ob, o1, o2, o3⟩ := cmpThr_spec cmp o t (hsh ▸ ht)
  have hE : ∀ (a : NDArr (Fl K)) i, cmp (a.get i) (thrAt t i) = true ↔ E a i := by
    intro a i
    cases isOver
    · simp only [hcmp, E, Bool.false_eq_true, if_false]; exact lt_iff_LtP _ _
    · simp only [hcmp, E, if_true]; exact lt_iff_LtP _ _
  have hfo : fb.shape = ob.shape := by rw [f2, o2, hsh]
  have hP : ∀ i, InB f.shape i → (fb.get i = true ↔ E f i) ∧ (ob.get i = true ↔ E o i) := by
    intro i hi
    rw [f3 i hi, o3 i (hsh ▸ hi), hE, hE]
    exact ⟨Iff.rfl, Iff.rfl⟩
  have hrun : iouDeterm f o none (if isOver then some t else none) (if isOver then none else some t) =
      iou (K := K) fb ob none := by
    unfold iouDeterm
    rw [if_pos hsh]
    cases isOver
    · simp only [hcmp, Bool.false_eq_true, if_false] at f1 o1 ⊢
      simp only [f1, o1, bind, Except.bind]
    · simp only [hcmp, if_true] at f1 o1 ⊢
      simp only [f1, o1, bind, Except.bind]
  rw [hrun]
  have key := iou_all (K := K) fb ob hfo
  rw [f2] at key
  refine ⟨fun hev => key.1 fun i hi => ?_, fun ⟨i, hi, hEi⟩ => ?_⟩
  · rw [mem_allIdx] at hi
    rw [Ne, Ne, (hP i hi).1, (hP i hi).2]
    exact hev i hi
  · obtain ⟨r, r1, r2, r3⟩ := key.2 ⟨i, mem_allIdx.2 hi, by rw [(hP i hi).1, (hP i hi).2]; exact hEi⟩
    exact ⟨r, r1, r2, isIou_congr (fun i hi => (hP i (mem_allIdx.1 hi)).1) (fun i hi => (hP i (mem_allIdx.1 hi)).2) r3⟩

/-- **C19** with the default averaging (`avg_axis=None`): the intersection over union over all positions, a number in
`[0,1]` with the same characterisation, if some position shows the event. -/
theorem C19_determ_all_partial (f o : NDArr (Fl K)) (hsh : f.shape = o.shape) (t : Thr K)
    (ht : ThrOK t f.shape) (isOver : Bool) :
    let E : NDArr (Fl K) → List Nat → Prop := fun a i =>
      if isOver then LtP (thrAt t i) (a.get i) else LtP (a.get i) (thrAt t i)
    (∃ i, InB f.shape i ∧ (E f i ∨ E o i)) →
    ∃ r w, iouDeterm f o none (if isOver then some t else none) (if isOver then none else some t) = .ok r ∧ r.shape = [] ∧
      r.get [] = some w ∧ IsIou (allIdx f.shape) (E f) (E o) (some w) ∧ 0 ≤ w ∧ w ≤ 1 ∧
      (w = 1 ↔ ∀ i, InB f.shape i → (E f i ↔ E o i)) ∧ (w = 0 ↔ ∀ i, InB f.shape i → ¬ (E f i ∧ E o i)) := by
  intro E hev
  obtain ⟨r, r1, r2, r3⟩ := (iouDeterm_all f o hsh t ht isOver).2 hev
  obtain ⟨i, hi, hEi⟩ := hev
  obtain ⟨w, w1, w2, w3, w4, w5⟩ := isIou_facts r3 ⟨i, mem_allIdx.2 hi, hEi⟩
  refine ⟨r, w, r1, r2, w1, by rw [← w1]; exact r3, w2, w3, w4.trans ?_, w5.trans ?_⟩
  · exact forall_congr' fun j => by rw [mem_allIdx]
  · exact forall_congr' fun j => by rw [mem_allIdx]

/-- **C19** fails for the default averaging when no position shows the event: instead of NaN the call
raises `ZeroDivisionError`. -/
theorem C19_false (f o : NDArr (Fl K)) (hsh : f.shape = o.shape) (t : Thr K) (ht : ThrOK t f.shape) (isOver : Bool)
    (hev : ∀ i, InB f.shape i → ¬ (if isOver then LtP (thrAt t i) (f.get i) else LtP (f.get i) (thrAt t i)) ∧
      ¬ (if isOver then LtP (thrAt t i) (o.get i) else LtP (o.get i) (thrAt t i))) :
    iouDeterm f o none (if isOver then some t else none) (if isOver then none else some t) = .error .generic :=
  (iouDeterm_all f o hsh t ht isOver).1 hev

/-- **C19** for the probabilistic helper: the forecast event is `probability > p` (resp. `< p`). -/
theorem C19_prob_partial (q : NDArr (Fl K)) (ob : NDArr Bool) (hsh : q.shape = ob.shape) {l : List Int}
    (hl : OptOK q.shape.length (some l)) (p : K) (hp0 : 0 ≤ p) (hp1 : p ≤ 1) (isOver : Bool) :
    let t : Thr K := .scalar (some p)
    let E : List Nat → Prop := fun i =>
      if isOver then LtP (some p) (q.get i) else LtP (q.get i) (some p)
    ∃ r, iouProb q ob (some l) (if isOver then some t else none) (if isOver then none else some t) =
        .ok r ∧ r.shape = dropAxes (l.map (axisNum q.shape.length)) q.shape ∧
      ∀ k, InB (dropAxes (l.map (axisNum q.shape.length)) q.shape) k →
        let P := fiberIdx q.shape (l.map (axisNum q.shape.length)) k
        IsIou P E (fun i => ob.get i = true) (r.get k) ∧
        ((∀ i ∈ P, ¬ E i ∧ ob.get i = false) → r.get k = none) ∧
        ((∃ i ∈ P, E i ∨ ob.get i = true) → ∃ w, r.get k = some w ∧ 0 ≤ w ∧ w ≤ 1 ∧
          (w = 1 ↔ ∀ i ∈ P, E i ↔ ob.get i = true) ∧
          (w = 0 ↔ ∀ i ∈ P, ¬ (E i ∧ ob.get i = true))) := by
  intro t E
  have hpt : probThr t = .ok () := by simp [t, probThr, Fl.le, hp0, hp1]
  set cmp : Fl K → Bool := if isOver then fun x => Fl.lt (some p) x else fun x => Fl.lt x (some p)
    with hcmp
  have hfo : (q.map cmp).shape = ob.shape := hsh
  obtain ⟨r, r1, r2, r3⟩ := iou_spec (K := K) (q.map cmp) ob hfo (l := l) hl
  rw [shape_map] at r2 r3
  have hE : ∀ i, InB q.shape i → ((q.map cmp).get i = true ↔ E i) := by
    intro i hi
    rw [get_map _ _ hi]
    cases isOver
    · simp only [hcmp, E, Bool.false_eq_true, if_false]; exact lt_iff_LtP _ _
    · simp only [hcmp, E, if_true]; exact lt_iff_LtP _ _
  refine ⟨r, ?_, r2, ?_⟩
  · unfold iouProb
    rw [if_pos hsh]
    cases isOver
    · simp only [hcmp, Bool.false_eq_true, if_false] at r1 ⊢
      simp only [hpt, bind, Except.bind]
      exact r1
    · simp only [hcmp, if_true] at r1 ⊢
      simp only [hpt, bind, Except.bind]
      exact r1
  · intro k hk P
    have hP : ∀ i ∈ P, ((q.map cmp).get i = true ↔ E i) := fun i hi => hE i (mem_fiberIdx.1 hi).1
    refine ⟨isIou_congr hP (fun _ _ => Iff.rfl) (r3 k hk), ?_, ?_⟩
    · intro hall
      exact (r3 k hk).1 fun i hi => by simp only [hP i hi]; simpa using hall i hi
    · rintro ⟨i, hi, hEi⟩
      obtain ⟨w, w1, w2, w3, w4, w5⟩ := isIou_facts (r3 k hk) ⟨i, hi, by simp only [hP i hi]; exact hEi⟩
      refine ⟨w, w1, w2, w3, w4.trans ?_, w5.trans ?_⟩
      · exact forall₂_congr fun j hj => by simp only [hP j hj]
      · exact forall₂_congr fun j hj => by simp only [hP j hj]

/-- **C19** for the probabilistic helper with the default averaging -/
theorem C19_prob_all_partial (q : NDArr (Fl K)) (ob : NDArr Bool) (hsh : q.shape = ob.shape) (p : K) (hp0 : 0 ≤ p)
    (hp1 : p ≤ 1) (isOver : Bool) :
    let t : Thr K := .scalar (some p)
    let E : List Nat → Prop := fun i =>
      if isOver then LtP (some p) (q.get i) else LtP (q.get i) (some p)
    ((∀ i, InB q.shape i → ¬ E i ∧ ¬ ob.get i = true) →
      iouProb q ob none (if isOver then some t else none) (if isOver then none else some t) = .error .generic) ∧
    ((∃ i, InB q.shape i ∧ (E i ∨ ob.get i = true)) →
      ∃ r, iouProb q ob none (if isOver then some t else none) (if isOver then none else some t) = .ok r ∧ r.shape = [] ∧
        IsIou (allIdx q.shape) E (fun i => ob.get i = true) (r.get [])) := by
  intro t E
  have hpt : probThr t = .ok () := by simp [t, probThr, Fl.le, hp0, hp1]
  set cmp : Fl K → Bool := if isOver then fun x => Fl.lt (some p) x else fun x => Fl.lt x (some p)
    with hcmp
  have hE : ∀ i, InB q.shape i → ((q.map cmp).get i = true ↔ E i) := by
    intro i hi
    rw [get_map _ _ hi]
    cases isOver
    · simp only [hcmp, E, Bool.false_eq_true, if_false]; exact lt_iff_LtP _ _
    · simp only [hcmp, E, if_true]; exact lt_iff_LtP _ _
  have hrun : iouProb q ob none (if isOver then some t else none) (if isOver then none else some t) =
      iou (K := K) (q.map cmp) ob none := by
    unfold iouProb
    rw [if_pos hsh]
    cases isOver
    · simp only [hcmp, Bool.false_eq_true, if_false]
      simp only [hpt, bind, Except.bind]
      rfl
    · simp only [hcmp, if_true]
      simp only [hpt, bind, Except.bind]
      rfl
  rw [hrun]
  have key := iou_all (K := K) (q.map cmp) ob hsh
  rw [shape_map] at key
  refine ⟨fun hev => key.1 fun i hi => ?_, fun ⟨i, hi, hEi⟩ => ?_⟩
  · rw [mem_allIdx] at hi
    rw [Ne, hE i hi]
    exact hev i hi
  · obtain ⟨r, r1, r2, r3⟩ := key.2 ⟨i, mem_allIdx.2 hi, by rw [hE i hi]; exact hEi⟩
    exact ⟨r, r1, r2, isIou_congr (fun i hi => hE i (mem_allIdx.1 hi)) (fun _ _ => Iff.rfl) r3⟩

/-! ### C54 -/

/-- **C54** is false: with only `over` (or only `below`) given, the other argument is `None` and the call
raises `AssertionError`, whatever the data, thresholds and probabilities. -/
theorem C54_false (cdf : Option (Thr K) → Option (Thr K) → Except Err (NDArr (Fl K)))
    (o : NDArr (Fl K)) (axis : Option (List Int)) (pair : List (Option (Thr K))) :
    iouProbMetric cdf o axis (some pair) none = .error .assertion ∧
    iouProbMetric cdf o axis none (some pair) = .error .assertion := ⟨rfl, rfl⟩

/-- **C54**, the workable form: passing `(None, None)` for the other argument gives the IOU of the event
at threshold `t` with the forecast probability binarised at `p`. -/
theorem C54_pairs_partial (cdf : Option (Thr K) → Option (Thr K) → Except Err (NDArr (Fl K)))
    (o : NDArr (Fl K)) (axis : Option (List Int)) (t p : Thr K) :
    iouProbMetric cdf o axis (some [some t, some p]) (some [none, none]) =
      (cdf (some t) none >>= fun q => binarizeObs o (some t) none >>= fun ob =>
        iouProb q ob axis (some p) none) ∧
    iouProbMetric cdf o axis (some [none, none]) (some [some t, some p]) =
      (cdf none (some t) >>= fun q => binarizeObs o none (some t) >>= fun ob =>
        iouProb q ob axis none (some p)) := ⟨rfl, rfl⟩

/-! ### C20 -/

/-- **C20**: the routine receives exactly the pairs of the two arrays in storage order, a pair being
dropped if and only if skipping is on and one of its values is missing. -/
theorem C20_pairs {R : Type} (roc : List (Fl K) → List (Fl K) → Except Err R) (skip : Bool)
    (f o : NDArr (Fl K)) (hsh : f.shape = o.shape) :
    let P := ((allIdx f.shape).map fun i => (f.get i, o.get i)).filter
      fun p => !(skip && (p.1.isNone || p.2.isNone))
    calculateRoc roc skip f o = roc (P.map Prod.fst) (P.map Prod.snd) := by
  intro P
  have hl : f.data.length = o.data.length := by rw [f.wf, o.wf, hsh]
  have hz : (allIdx f.shape).map (fun i => (f.get i, o.get i)) = f.data.zip o.data := by
    rw [data_eq f, data_eq o, ← hsh, List.zip_map']
  have key : ∀ (a b : List (Fl K)), a.length = b.length →
      dropMasked a (List.zipWith (fun x y => Option.isNone x || Option.isNone y) a b) =
        ((a.zip b).filter fun p => !(p.1.isNone || p.2.isNone)).map Prod.fst ∧
      dropMasked b (List.zipWith (fun x y => Option.isNone x || Option.isNone y) a b) =
        ((a.zip b).filter fun p => !(p.1.isNone || p.2.isNone)).map Prod.snd := by
    intro a
    induction a with
    | nil => intro b hb; cases b with
      | nil => exact ⟨rfl, rfl⟩
      | cons _ _ => simp at hb
    | cons x a ih =>
      intro b hb
      cases b with
      | nil => simp at hb
      | cons y b =>
        obtain ⟨i1, i2⟩ := ih b (by simpa using hb)
        unfold dropMasked at i1 i2 ⊢
        simp only [List.zipWith_cons_cons, List.zip_cons_cons, List.filterMap_cons,
          List.filter_cons]
        cases hx : (Option.isNone x || Option.isNone y) <;> simp [i1, i2]
  unfold calculateRoc
  cases skip
  · simp only [Bool.false_eq_true, if_false]
    have : P = f.data.zip o.data := by simp [P, hz]
    rw [this, List.map_fst_zip (by omega), List.map_snd_zip (by omega)]
  · simp only [if_true, if_pos hl]
    have : P = (f.data.zip o.data).filter fun p => !(p.1.isNone || p.2.isNone) := by
      simp only [P, hz, Bool.true_and]
    rw [this, (key _ _ hl).1, (key _ _ hl).2]

/-! ### examples -/

example : okAnd (iouDeterm (K := ℚ) ⟨[2, 2], [some 1, some 5, none, some 8], rfl⟩
    ⟨[2, 2], [some 1, some 1, some 9, some 9], rfl⟩ (some [-1]) none (some (.scalar (some 3))))
    (fun r => r.data = [some (1/2), none]) = true := by decide +kernel

example : iouDeterm (K := ℚ) ⟨[1], [some 5], rfl⟩ ⟨[1], [some 5], rfl⟩ none none
    (some (.scalar (some 3))) = .error .generic := by rfl

example : okAnd (calculateRoc (K := ℚ) (fun a b => .ok (a, b)) true
    ⟨[3], [some (1/2), none, some 1], rfl⟩ ⟨[3], [some 1, some 1, some 0], rfl⟩)
    (fun r => r = ([some (1/2), some 1], [some 1, some 0])) = true := by decide +kernel

end Props
