import Verif.Spec.Shuffle
import Verif.Lemmas.Rank
import Verif.Lemmas.Reduce

/-! The functions of an ensemble do not depend on the order of the members. -/

set_option linter.unusedSectionVars false

namespace Lemmas
open Np NDArr Spec Model

variable {K : Type} [Field K] [LinearOrder K] [IsStrictOrderedRing K] {α β : Type}
variable {f g o : NDArr (Fl K)} {ax : Int}

/-! ### scalar reductions -/

theorem fadd_left_comm (x y z : Fl K) : Fl.add x (Fl.add y z) = Fl.add y (Fl.add x z) := by
  cases x <;> cases y <;> cases z <;> simp [add_left_comm]

theorem fsum_shuffle {l m : List (Fl K)} (h : l.Perm m) : fsum l = fsum m := by
  unfold fsum
  exact h.foldr_eq' (fun x _ y _ z => fadd_left_comm y x z) _

theorem mean_shuffle {l m : List (Fl K)} (h : l.Perm m) : mean l = mean m := by
  unfold mean
  rw [fsum_shuffle h, h.length_eq]
  by_cases hl : l = []
  · subst hl; rw [if_pos rfl, if_pos h.nil_eq.symm]
  · rw [if_neg hl, if_neg fun hm => hl (by subst hm; exact h.eq_nil)]

theorem nanmean_shuffle {l m : List (Fl K)} (h : l.Perm m) : nanmean l = nanmean m := mean_shuffle (h.filter _)

theorem npVar_shuffle {l m : List (Fl K)} (h : l.Perm m) : npVar l = npVar m := by
  unfold npVar
  rw [mean_shuffle h]
  exact mean_shuffle (h.map _)

theorem max_comm3 (x y z : Fl K) : Fl.max (Fl.max x y) z = Fl.max (Fl.max x z) y := by
  cases x <;> cases y <;> cases z <;> simp [Fl.max, max_right_comm]

theorem min_comm3 (x y z : Fl K) : Fl.min (Fl.min x y) z = Fl.min (Fl.min x z) y := by
  cases x <;> cases y <;> cases z <;> simp [Fl.min, min_right_comm]

theorem max_swap (x y : Fl K) : Fl.max x y = Fl.max y x := by
  cases x <;> cases y <;> simp [Fl.max, max_comm]

theorem min_swap (x y : Fl K) : Fl.min x y = Fl.min y x := by
  cases x <;> cases y <;> simp [Fl.min, min_comm]

/-- folding a commutative operation that starts from the first element -/
def fold1 (op : Fl K → Fl K → Fl K) : List (Fl K) → Option (Fl K)
  | [] => none
  | x :: l => some (l.foldl op x)

theorem fold1_shuffle {op : Fl K → Fl K → Fl K} (h3 : ∀ x y z, op (op x y) z = op (op x z) y)
    (h2 : ∀ x y, op x y = op y x) {l m : List (Fl K)} (h : l.Perm m) : fold1 op l = fold1 op m := by
  induction h with
  | nil => rfl
  | @cons x l m h ih =>
    simp only [fold1]
    congr 1
    exact h.foldl_eq' (fun a _ b _ z => h3 z a b) _
  | swap x y l => simp only [fold1, List.foldl_cons, h2]
  | trans _ _ ih1 ih2 => exact ih1.trans ih2

theorem npMax_eq (l : List (Fl K)) : npMax l = match fold1 Fl.max l with
    | none => .error .value
    | some v => .ok v := by cases l <;> rfl

theorem npMin_eq (l : List (Fl K)) : npMin l = match fold1 Fl.min l with
    | none => .error .value
    | some v => .ok v := by cases l <;> rfl

theorem npMax_shuffle {l m : List (Fl K)} (h : l.Perm m) : npMax l = npMax m := by
  rw [npMax_eq, npMax_eq, fold1_shuffle max_comm3 max_swap h]

theorem npMin_shuffle {l m : List (Fl K)} (h : l.Perm m) : npMin l = npMin m := by
  rw [npMin_eq, npMin_eq, fold1_shuffle min_comm3 min_swap h]

theorem nanMax_eq (l : List (Fl K)) : nanMax l = if l = [] then .error .value else
    match fold1 Fl.max (l.filter Option.isSome) with
    | none => .ok none
    | some v => .ok v := by
  unfold nanMax
  cases l.filter Option.isSome <;> rfl

theorem nanMin_eq (l : List (Fl K)) : nanMin l = if l = [] then .error .value else
    match fold1 Fl.min (l.filter Option.isSome) with
    | none => .ok none
    | some v => .ok v := by
  unfold nanMin
  cases l.filter Option.isSome <;> rfl

theorem nil_shuffle {l m : List α} (h : l.Perm m) : l = [] ↔ m = [] :=
  ⟨fun e => by subst e; exact h.nil_eq.symm, fun e => by subst e; exact h.eq_nil⟩

theorem nanMax_shuffle {l m : List (Fl K)} (h : l.Perm m) : nanMax l = nanMax m := by
  rw [nanMax_eq, nanMax_eq, fold1_shuffle max_comm3 max_swap (h.filter _)]
  simp only [nil_shuffle h]

theorem nanMin_shuffle {l m : List (Fl K)} (h : l.Perm m) : nanMin l = nanMin m := by
  rw [nanMin_eq, nanMin_eq, fold1_shuffle min_comm3 min_swap (h.filter _)]
  simp only [nil_shuffle h]

theorem momentsCol_shuffle (t : Fl K) {l m : List (Fl K)} (h : l.Perm m) : momentsCol (t :: l) = momentsCol (t :: m) := by
  unfold momentsCol
  simp only [List.tail_cons, List.getD_cons_zero, List.length_cons, h.countP_eq, h.length_eq]

theorem minRank_shuffle {l m : List (Fl K)} (h : l.Perm m) (x : Fl K) : minRank l x = minRank m x := by
  unfold minRank; rw [h.countP_eq]

theorem rankCol_shuffle (t : Fl K) {l m : List (Fl K)} (h : l.Perm m) : rankCol (t :: l) = rankCol (t :: m) := by
  unfold rankCol
  simp only [List.getD_cons_zero, minRank_shuffle (h.cons t), (h.cons t).mem_iff]

theorem tiesCol_shuffle (t : Fl K) {l m : List (Fl K)} (h : l.Perm m) : tiesCol (t :: l) = tiesCol (t :: m) := by
  unfold tiesCol
  simp only [List.getD_cons_zero, List.tail_cons, minRank_shuffle (h.cons t), (h.cons t).mem_iff, h.countP_eq]

/-! ### shuffled arrays -/

theorem _root_.Spec.Shuffled.axis_ok (h : Shuffled ax f g) (hax : AxisOK f.shape.length ax) : AxisOK g.shape.length ax := by
  rw [h.shape]; exact hax

theorem prod_posShape (s : List Nat) {n : Nat} (h : n < s.length) : s.prod = s.getD n 0 * (s.eraseIdx n).prod := by
  conv_lhs => rw [← insertIdx_eraseIdx' h]
  rw [prod_insertIdx (by rw [List.length_eraseIdx_of_lt h]; omega)]

theorem eq_of_prod_zero {a b : NDArr α} (h : b.shape = a.shape) (h0 : a.shape.prod = 0) : b = a := by
  apply NDArr.ext' h
  have ha := a.wf
  have hb := b.wf
  rw [h, h0] at hb
  rw [h0] at ha
  rw [List.length_eq_zero_iff.1 ha, List.length_eq_zero_iff.1 hb]

theorem _root_.Spec.Shuffled.eq_of_empty (h : Shuffled ax f g) (hax : AxisOK f.shape.length ax)
    (h0 : (posShape f.shape ax).prod = 0) : g = f := by
  apply eq_of_prod_zero h.shape
  rw [prod_posShape f.shape (axisNum_lt hax)]
  exact Nat.mul_eq_zero.2 (Or.inr h0)

theorem reduceAxesE_shuffle [Inhabited β] (F : List (Fl K) → Except Err β) (hF : ∀ l m, l.Perm m → F l = F m)
    (h : Shuffled ax f g) (hax : AxisOK f.shape.length ax) :
    reduceAxesE F g (some [ax]) = reduceAxesE F f (some [ax]) := by
  unfold reduceAxesE
  have hn : normAxes f.shape.length (some [ax]) = .ok [axisNum f.shape.length ax] :=
    normAxes_ok (axes := some [ax]) ⟨by simpa using hax, by simp⟩
  rw [show g.ndim = f.shape.length by unfold ndim; rw [h.shape], show f.ndim = f.shape.length from rfl, hn, h.shape]
  simp only [bind, Except.bind]
  have hoff : offAxes [axisNum f.shape.length ax] f.shape = posShape f.shape ax := dropAxes_single (axisNum_lt hax)
  have : mapE (fun k => F (reduced g [axisNum f.shape.length ax] k))
        (allIdx (offAxes [axisNum f.shape.length ax] f.shape)) =
      mapE (fun k => F (reduced f [axisNum f.shape.length ax] k))
        (allIdx (offAxes [axisNum f.shape.length ax] f.shape)) := by
    apply mapE_congr
    intro k hk
    apply hF
    have hm := h.members k (by rw [hoff] at hk; exact mem_allIdx.1 hk)
    unfold membersAt at hm
    rw [h.shape] at hm
    exact hm
  rw [this]

theorem reduceAxes_shuffle [Inhabited β] (F : List (Fl K) → β) (hF : ∀ l m, l.Perm m → F l = F m)
    (h : Shuffled ax f g) (hax : AxisOK f.shape.length ax) :
    reduceAxes F g (some [ax]) = reduceAxes F f (some [ax]) :=
  reduceAxesE_shuffle _ (fun l m hp => by rw [hF l m hp]) h hax

theorem ensVariance_shuffle (h : Shuffled ax f g) (hax : AxisOK f.shape.length ax) :
    ensVariance g ax = ensVariance f ax := reduceAxes_shuffle _ (fun _ _ => npVar_shuffle) h hax

theorem ensSpread_shuffle (skip : Bool) (h : Shuffled ax f g) (hax : AxisOK f.shape.length ax) :
    ensSpread skip g ax = ensSpread skip f ax := by
  unfold ensSpread
  rw [reduceAxesE_shuffle (if skip then nanMax else npMax) (fun l m hp => by
      cases skip
      · exact npMax_shuffle hp
      · exact nanMax_shuffle hp) h hax,
    reduceAxesE_shuffle (if skip then nanMin else npMin) (fun l m hp => by
      cases skip
      · exact npMin_shuffle hp
      · exact nanMin_shuffle hp) h hax]

/-! ### probabilities -/

theorem mergeThreshold_error {t : Thr K} (hax : AxisOK f.shape.length ax) (ht : ¬ ThrOK t (posShape f.shape ax)) :
    mergeThreshold f ax t = .error .assertion := by
  unfold mergeThreshold
  rw [show f.ndim = f.shape.length from rfl, normAxis_ok hax]
  cases t with
  | scalar v => exact absurd trivial ht
  | array a => simp only [bind, Except.bind]; rw [if_neg (show ¬ a.shape = f.shape.eraseIdx (axisNum f.shape.length ax) from ht)]
  | other => rfl

theorem ensToProbBelow_shuffle (workers : Nat) (method : Method) (kde : List (Fl K) → Fl K) (t : Thr K)
    (hk : method = .kde → ∀ t l m, l.Perm m → kde (t :: l) = kde (t :: m))
    (h : Shuffled ax f g) (hax : AxisOK f.shape.length ax) :
    ensToProbBelow workers method kde g ax t = ensToProbBelow workers method kde f ax t := by
  by_cases h0 : (posShape f.shape ax).prod = 0
  · rw [h.eq_of_empty hax h0]
  have hgax := h.axis_ok hax
  by_cases ht : ThrOK t (posShape f.shape ax)
  · have hgt : ThrOK t (posShape g.shape ax) := by rw [h.shape]; exact ht
    by_cases hm : method = .unknown
    · subst hm
      unfold ensToProbBelow
      obtain ⟨c, hc, -⟩ := mergeThreshold_spec f t hax ht
      obtain ⟨d, hd, -⟩ := mergeThreshold_spec g t hgax hgt
      rw [hc, hd]; rfl
    · obtain ⟨r, r1, r2, r3⟩ := ensToProbBelow_spec workers method kde f t hax ht hm h0
      obtain ⟨s, s1, s2, s3⟩ := ensToProbBelow_spec workers method kde g t hgax hgt hm (by
        rw [h.shape]; exact h0)
      rw [r1, s1]
      congr 1
      have hs : s.shape = r.shape := by rw [r2, s2, h.shape]
      apply ext_get hs
      intro k hk'
      have hkf : InB (posShape f.shape ax) k := by rw [hs, r2] at hk'; exact hk'
      rw [r3 k hkf, s3 k (by rw [h.shape]; exact hkf)]
      have hp := h.members k hkf
      unfold membersAt at hp
      cases hme : method with
      | kde => exact hk hme _ _ _ hp
      | moments => exact momentsCol_shuffle _ hp
      | unknown => exact absurd hme hm
  · unfold ensToProbBelow
    rw [mergeThreshold_error hax ht, mergeThreshold_error hgax (by rw [h.shape]; exact ht)]

/-! ### ranks -/

theorem rankdata_columns {c d : NDArr (Fl K)} (hs : d.shape = c.shape) (draw : Nat → Nat → Nat)
    (h : ∀ k, InB c.shape.tail k → rankCol (column d k) = rankCol (column c k) ∧ tiesCol (column d k) = tiesCol (column c k)) :
    rankdata draw d = rankdata draw c := by
  have hp : rankPairs d = rankPairs c := by
    unfold rankPairs
    rw [hs]
    apply List.map_congr_left
    intro k hk
    obtain ⟨h1, h2⟩ := h k (mem_allIdx.1 hk)
    rw [h1, h2]
  apply NDArr.ext'
  · simp only [rankdata, hs]
  · simp only [rankdata, hp]

theorem inB_set_back {D k : List Nat} {n j : Nat} (hk : InB (D.set n 1) k) (hj : j < D.getD n 0) :
    InB D (k.set n (k.getD n 0 + j)) := by
  induction n generalizing D k with
  | zero => cases D with
    | nil => cases hk; exact List.Forall₂.nil
    | cons a D =>
      cases hk with
      | cons h1 h2 => exact List.Forall₂.cons (by simp at h1 hj ⊢; omega) h2
  | succ n ih => cases D with
    | nil => cases hk; exact List.Forall₂.nil
    | cons a D =>
      cases hk with
      | cons h1 h2 => exact List.Forall₂.cons h1 (ih h2 (by simpa using hj))

theorem rankAll_columns (workers : Nat) (mapAxis : Int) (draw : Nat → Nat → Nat → Nat) {c d : NDArr (Fl K)} {M : Nat}
    {D : List Nat} (hM : M ≠ 0) (hc : c.shape = M :: D) (hd : d.shape = M :: D)
    (h : ∀ k, InB D k → rankCol (column d k) = rankCol (column c k) ∧ tiesCol (column d k) = tiesCol (column c k)) :
    rankAll workers mapAxis draw d = rankAll workers mapAxis draw c := by
  have hs : d.shape = c.shape := hd.trans hc.symm
  have hcn : c.ndim = D.length + 1 := by unfold ndim; rw [hc]; rfl
  have hdn : d.ndim = D.length + 1 := by unfold ndim; rw [hd]; rfl
  unfold rankAll
  by_cases h1 : workers = 1
  · rw [if_pos h1, if_pos h1, rankdata_columns hs (draw 0) (by rw [hc]; exact h)]
  rw [if_neg h1, if_neg h1]
  by_cases hneg : mapAxis < 0
  swap
  · rw [if_neg hneg, if_neg hneg]
  rw [if_pos hneg, if_pos hneg, hcn, hdn]
  by_cases hlo : -((D.length + 1 : Nat) : Int) ≤ mapAxis
  swap
  · rw [if_neg hlo, if_neg hlo]
  rw [if_pos hlo, if_pos hlo]
  simp only [hs]
  obtain ⟨n, hn⟩ : ∃ n, (mapAxis + ((D.length + 1 : Nat) : Int)).toNat = n := ⟨_, rfl⟩
  rw [hn]
  by_cases hz : c.shape.getD n 0 = 0
  · rw [if_pos hz, if_pos hz]
  rw [if_neg hz, if_neg hz]
  cases n with
  | zero =>
    -- the pieces are cut along the member axis; joining them again raises
    have hax : mapAxis = -((D.length + 1 : Nat) : Int) := by omega
    have key : ∀ e : NDArr (Fl K), e.shape = M :: D →
        concatAx mapAxis ((e.splitOnes 0).zipIdx.map fun p => rankdata (draw p.2) p.1) =
          .error (α := NDArr (Option Nat)) .axis := by
      intro e he
      unfold splitOnes
      rw [he]
      simp only [List.getD_cons_zero]
      obtain ⟨m, rfl⟩ := Nat.exists_eq_succ_of_ne_zero hM
      rw [List.range_succ_eq_map, List.map_cons, List.zipIdx_cons, List.map_cons]
      simp only [concatAx]
      have : (rankdata (draw 0) (e.slab 0 0)).ndim = D.length := by
        simp [rankdata, ndim, slab, he]
      rw [this]
      unfold normAxis
      rw [if_neg (by omega)]
      rfl
    rw [key d hd, key c hc]
  | succ n =>
    congr 1
    have hnl : n < D.length := by omega
    unfold splitOnes
    rw [hs]
    rw [List.zipIdx_map, List.zipIdx_map, List.map_map, List.map_map]
    apply List.map_congr_left
    intro p hp
    have hp1 : p.1 < D.getD n 0 := by
      have := List.fst_mem_of_mem_zipIdx hp
      rw [hc, List.getD_cons_succ, List.mem_range] at this
      exact this
    simp only [Function.comp, Prod.map]
    apply rankdata_columns
    · simp [slab, hs]
    · intro k hk
      have hk' : InB (D.set n 1) k := by simpa [slab, hc] using hk
      have e1 := column_slab c hc (n := n) (j := p.1) hk'
      have e2 := column_slab d hd (n := n) (j := p.1) hk'
      rw [e1, e2]
      exact h _ (inB_set_back hk' hp1)

theorem mergeObs_point (ho : o.shape = []) {n : Nat} (hf : f.shape = [n]) (hn : n ≠ 1) (hax : AxisOK f.shape.length ax) :
    mergeObs f o ax = .error .value := by
  obtain ⟨m, m1, m2, -⟩ := moveaxis_front f hax
  obtain ⟨e, e1, e2, -⟩ := expandDims_spec o (N := o.shape.length + 1) (ax := 0) rfl ⟨by omega, by omega⟩
  have h0 : axisNum f.shape.length ax = 0 := by
    have := axisNum_lt hax
    rw [hf] at this ⊢
    simpa using this
  rw [h0, hf] at m2
  rw [ho] at e2
  have e2' : e.shape = [1] := by rw [e2]; rfl
  have m2' : m.shape = [n] := by rw [m2]; rfl
  have a1 : ∀ (x : NDArr (Fl K)) j, x.shape = [j] → ∃ y, atleast2d x = .ok y ∧ y.shape = [1, j] := by
    intro x j hx
    unfold atleast2d
    rw [hx]
    simp only
    obtain ⟨y, y1, y2, -⟩ := reshape_eq x [1, j] (by rw [hx]; simp)
    exact ⟨y, y1, y2⟩
  obtain ⟨e', e3, e4⟩ := a1 e 1 e2'
  obtain ⟨m', m3, m4⟩ := a1 m n m2'
  unfold mergeObs vstack
  rw [e1, m1]
  simp only [bind, Except.bind, e3, m3]
  simp only [concat]
  rw [if_neg]
  rintro ⟨h, -⟩
  have := h m' (by simp)
  rw [m4, e4] at this
  simp at this
  exact hn this

theorem _root_.Spec.Shuffled.eq_of_one (h : Shuffled ax f g) (hf : f.shape = [1]) (hax : AxisOK f.shape.length ax) :
    g = f := by
  apply ext_get h.shape
  intro i hi
  have h0 : axisNum f.shape.length ax = 0 := by
    have := axisNum_lt hax
    rw [hf] at this ⊢
    simpa using this
  have hp := h.members [] (by unfold posShape; rw [h0, hf]; exact List.Forall₂.nil)
  unfold membersAt at hp
  rw [h.shape, h0] at hp
  rw [fiber_single f (by rw [hf]; simp) (by rw [hf]; exact List.Forall₂.nil),
    fiber_single g (by rw [h.shape, hf]; simp) (by rw [h.shape, hf]; exact List.Forall₂.nil), h.shape, hf] at hp
  have hp' : [g.get [0]].Perm [f.get [0]] := by simpa using hp
  have hi' : i = [0] := by
    rw [h.shape, hf] at hi
    cases hi with
    | cons h1 h2 =>
      cases h2
      congr 1
      omega
  rw [hi']
  simpa using hp'

theorem none_mem_data (hax : AxisOK f.shape.length ax) :
    none ∈ f.data ↔ ∃ k, InB (posShape f.shape ax) k ∧ none ∈ membersAt f ax k := by
  have hlt := axisNum_lt hax
  rw [data_eq f]
  unfold membersAt fiber
  simp only [List.mem_map, mem_fiberIdx, mem_allIdx]
  constructor
  · rintro ⟨i, hi, e⟩
    refine ⟨i.eraseIdx (axisNum f.shape.length ax), inB_eraseIdx hi, i, ⟨hi, ?_⟩, e⟩
    rw [← dropAxes_single (by rw [hi.length]; exact hlt)]
  · rintro ⟨k, -, i, ⟨hi, -⟩, e⟩
    exact ⟨i, hi, e⟩

theorem none_mem_shuffle (h : Shuffled ax f g) (hax : AxisOK f.shape.length ax) : none ∈ g.data ↔ none ∈ f.data := by
  rw [none_mem_data hax, none_mem_data (h.axis_ok hax), h.shape]
  constructor <;> rintro ⟨k, hk, hm⟩
  · exact ⟨k, hk, (h.members k hk).mem_iff.1 hm⟩
  · exact ⟨k, hk, (h.members k hk).mem_iff.2 hm⟩

theorem rank_shuffle (workers : Nat) (mapAxis : Int) (draw : Nat → Nat → Nat → Nat)
    (h : Shuffled ax f g) (hax : AxisOK f.shape.length ax) (ho : o.shape = posShape f.shape ax) :
    (mergeObs g o ax >>= rankAll workers mapAxis draw) = (mergeObs f o ax >>= rankAll workers mapAxis draw) := by
  by_cases hne : o.shape = []
  · have hlt := axisNum_lt hax
    have hl : f.shape.length = 1 := by
      have := congrArg List.length ho
      rw [hne] at this
      unfold posShape at this
      rw [List.length_eraseIdx_of_lt hlt] at this
      simp at this
      omega
    obtain ⟨n, hn⟩ := List.length_eq_one_iff.1 hl
    by_cases h1 : n = 1
    · subst h1
      rw [h.eq_of_one hn hax]
    · rw [mergeObs_point hne hn h1 hax, mergeObs_point hne (h.shape.trans hn) h1 (h.axis_ok hax)]
  · obtain ⟨c, c1, c2, c3⟩ := mergeObs_spec f o hax ho hne
    obtain ⟨d, d1, d2, d3⟩ := mergeObs_spec g o (h.axis_ok hax) (by rw [h.shape]; exact ho) hne
    rw [c1, d1]
    simp only [bind, Except.bind]
    refine rankAll_columns workers mapAxis draw (by simp) c2 (by rw [d2, h.shape]) fun k hk => ?_
    rw [c3 k hk, d3 k hk]
    have hp := h.members k (ho ▸ hk)
    exact ⟨rankCol_shuffle _ hp, tiesCol_shuffle _ hp⟩

theorem rankHistogram_shuffle (skip npFloat : Bool) (workers : Nat) (mapAxis : Int) (draw : Nat → Nat → Nat → Nat)
    (h : Shuffled ax f g) (hax : AxisOK f.shape.length ax) (ho : o.shape = posShape f.shape ax) :
    rankHistogram skip npFloat workers mapAxis draw g o ax = rankHistogram skip npFloat workers mapAxis draw f o ax := by
  have hr := rank_shuffle workers mapAxis draw h hax ho
  unfold rankHistogram
  simp only [none_mem_shuffle h hax, hr]
  cases skip with
  | false => rfl
  | true =>
    simp only [if_true]
    rw [reduceAxes_shuffle fsum (fun _ _ => fsum_shuffle) h hax]
    congr 1
    funext s
    congr 1
    funext mask
    rw [← bind_assoc, hr, bind_assoc]

end Lemmas
