import Verif.Lemmas.Natural
import Verif.Model.SpecialBoot
import Verif.Model.SpreadSkill

/-! # Statistics of `a * x + b` -/

set_option linter.unusedSectionVars false

namespace Lemmas
open Np NDArr Model

variable {K : Type} [Field K] [LinearOrder K] [IsStrictOrderedRing K]

/-- multiply by `a` -/
def sc (a : K) : Fl K → Fl K := Option.map fun x => a * x
/-- multiply by `a` and add `b` -/
def aff (a b : K) : Fl K → Fl K := Option.map fun x => a * x + b

theorem sc_default (a : K) : sc a default = default := rfl
theorem aff_default (a b : K) : aff a b default = default := rfl

theorem sc_eq_aff (a : K) : sc a = aff a 0 := by
  funext x; cases x <;> simp [sc, aff]

theorem sub_aff (a b : K) (x y : Fl K) : Fl.sub (aff a b x) (aff a b y) = sc a (Fl.sub x y) := by
  cases x <;> cases y <;> simp [sc, aff, Fl.sub, Fl.lift2]
  ring

theorem add_sc (a : K) (x y : Fl K) : Fl.add (sc a x) (sc a y) = sc a (Fl.add x y) := by
  cases x <;> cases y <;> simp [sc, Fl.add, Fl.lift2]
  ring

theorem mul_sc (a b : K) (x y : Fl K) : Fl.mul (sc a x) (sc b y) = sc (a * b) (Fl.mul x y) := by
  cases x <;> cases y <;> simp [sc, Fl.mul, Fl.lift2]
  ring

theorem abs_sc {a : K} (ha : 0 < a) (x : Fl K) : Fl.abs (sc a x) = sc a (Fl.abs x) := by
  cases x <;> simp [sc, Fl.abs, abs_mul, abs_of_pos ha]

theorem sq_sc (a : K) (x : Fl K) : Fl.sq (sc a x) = sc (a * a) (Fl.sq x) := by
  cases x <;> simp [sc, Fl.sq]
  ring

theorem div_sc_left (a : K) (x y : Fl K) : Fl.div (sc a x) y = sc a (Fl.div x y) := by
  cases x <;> cases y <;> simp [sc, Fl.div]
  split <;> simp
  ring

theorem sc_sc (a b : K) (x : Fl K) : sc a (sc b x) = sc (a * b) x := by
  cases x <;> simp [sc]
  ring

theorem sc_one (x : Fl K) : sc 1 x = x := by cases x <;> simp [sc]

/-! ### sums and means -/

theorem fsum_sc (a : K) (l : List (Fl K)) : fsum (l.map (sc a)) = sc a (fsum l) := by
  induction l with
  | nil => simp [fsum, sc]
  | cons x l ih =>
    have e : ∀ (y : Fl K) (l : List (Fl K)), fsum (y :: l) = Fl.add y (fsum l) := fun _ _ => rfl
    rw [List.map_cons, e, e, ih, add_sc]

theorem mean_sc (a : K) (l : List (Fl K)) : mean (l.map (sc a)) = sc a (mean l) := by
  unfold mean
  rw [fsum_sc]
  by_cases h : l = []
  · subst h; rfl
  · rw [if_neg (by simpa using h), if_neg h, List.length_map]
    cases fsum l <;> simp [sc]
    ring

theorem filter_isSome_map (g : K → K) (l : List (Fl K)) :
    (l.map (Option.map g)).filter Option.isSome = (l.filter Option.isSome).map (Option.map g) := by
  induction l with
  | nil => rfl
  | cons x l ih => cases x <;> simp [ih]

theorem filterMap_id_map (g : K → K) (l : List (Fl K)) :
    (l.map (Option.map g)).filterMap id = (l.filterMap id).map g := by
  induction l with
  | nil => rfl
  | cons x l ih =>
    cases x
    · exact ih
    · exact congrArg (List.cons _) ih

theorem nanmean_sc (a : K) (l : List (Fl K)) : nanmean (l.map (sc a)) = sc a (nanmean l) := by
  unfold nanmean
  rw [← mean_sc]
  exact congrArg mean (filter_isSome_map _ l)

theorem meanOf_sc (a : K) (skip : Bool) (l : List (Fl K)) : meanOf skip (l.map (sc a)) = sc a (meanOf skip l) := by
  cases skip
  · exact mean_sc a l
  · exact nanmean_sc a l

theorem mean_aff (a b : K) (l : List (Fl K)) : mean (l.map (aff a b)) = aff a b (mean l) := by
  by_cases hl : l = []
  · subst hl; rfl
  by_cases hn : none ∈ l
  · rw [mean_none hn, mean_none (List.mem_map.2 ⟨none, hn, rfl⟩)]; rfl
  · obtain ⟨v, rfl⟩ := exists_map_some hn
    have hv : v ≠ [] := by rintro rfl; exact hl rfl
    have e : (v.map some).map (aff a b) = (v.map fun x => a * x + b).map some := by simp [aff]
    rw [e, mean_some _ (by simpa using hv), mean_some _ hv]
    simp only [aff, Option.map_some, List.length_map]
    congr 1
    have hs : (v.map fun x => a * x + b).sum = a * v.sum + v.length * b := by
      clear hv hn hl e
      induction v with
      | nil => simp
      | cons x v ih => simp only [List.map_cons, List.sum_cons, ih, List.length_cons]; push_cast; ring
    have hp : (v.length : K) ≠ 0 := by
      have := List.length_pos_iff.2 hv
      positivity
    rw [hs]
    field_simp

/-! ### quantiles -/

theorem sortK_map {a : K} (ha : 0 < a) (l : List K) : sortK (l.map (a * ·)) = (sortK l).map (a * ·) := by
  unfold sortK
  refine (List.map_insertionSort (r := fun x y => x ≤ y) (s := fun x y => x ≤ y) (fun x => a * x) l ?_).symm
  intro x _ y _
  exact (mul_le_mul_iff_right₀ ha).symm

theorem lerpAt_map [FloorSemiring K] (a : K) (s : List K) (v : K) : lerpAt (s.map (a * ·)) v = a * lerpAt s v := by
  unfold lerpAt
  have h : ∀ i, (s.map (a * ·)).getD i 0 = a * s.getD i 0 := fun i => getD_map' _ s i 0 0 (mul_zero a)
  simp only [h, List.length_map]
  ring

theorem quantile_sc [FloorSemiring K] {a : K} (ha : 0 < a) (l : List (Fl K)) (q : K) :
    quantile (l.map (sc a)) q = (quantile l q).map (sc a) := by
  unfold quantile
  split
  · by_cases h : l = [] ∨ none ∈ l
    · have h' : l.map (sc a) = [] ∨ none ∈ l.map (sc a) := by
        rcases h with h | h
        · exact Or.inl (by simp [h])
        · exact Or.inr (List.mem_map.2 ⟨none, h, rfl⟩)
      rw [if_pos h, if_pos h']; rfl
    · have h' : ¬ (l.map (sc a) = [] ∨ none ∈ l.map (sc a)) := by
        rintro (h' | h')
        · exact h (Or.inl (by simpa using h'))
        · obtain ⟨x, hx, e⟩ := List.mem_map.1 h'
          cases x with
          | none => exact h (Or.inr hx)
          | some y => cases e
      rw [if_neg h, if_neg h']
      have e : (l.map (sc a)).filterMap id = (l.filterMap id).map (a * ·) := filterMap_id_map _ l
      simp only [e, sortK_map ha, lerpAt_map, List.length_map, Except.map]
      rfl
  · rfl

theorem nanquantile_sc [FloorSemiring K] {a : K} (ha : 0 < a) (l : List (Fl K)) (q : K) :
    nanquantile (l.map (sc a)) q = (nanquantile l q).map (sc a) := by
  unfold nanquantile
  rw [← quantile_sc ha]
  exact congrArg (quantile · q) (filter_isSome_map _ l)

/-! ### the bootstrap -/

theorem choice_maps {α β : Type} [Inhabited α] [Inhabited β] {φ : α → β} (hφ : φ default = default) (pop : List α) (n : Nat)
    (draw : Nat → Nat) : choice (pop.map φ) n draw = (choice pop n draw).map (List.map φ) := by
  unfold choice
  by_cases h : pop = [] ∧ n ≠ 0
  · rw [if_pos h, if_pos (by simpa using h)]; rfl
  · rw [if_neg h, if_neg (by simpa using h)]
    simp only [Except.map, List.map_map, List.length_map]
    congr 1
    apply List.map_congr_left
    intro j _
    exact getD_map' φ pop _ _ _ hφ

theorem bootVec_sc [FloorSemiring K] {a : K} (ha : 0 < a) (pop : List (Fl K)) (n reps : Nat) (conf : K) (skip : Bool)
    (draw : Nat → Nat → Nat) :
    bootVec (pop.map (sc a)) n reps conf skip draw = (bootVec pop n reps conf skip draw).map (List.map (sc a)) := by
  unfold bootVec
  have e : (fun r => do
        let s ← choice (pop.map (sc a)) n (draw r)
        pure (meanOf skip s)) = fun r => (do
        let s ← choice pop n (draw r)
        pure (meanOf skip s) : Except Err (Fl K)).map (sc a) := by
    funext r
    rw [choice_maps (sc_default a)]
    cases choice pop n (draw r) with
    | error e => rfl
    | ok s => exact congrArg Except.ok (meanOf_sc a skip s)
  rw [e, mapE_map]
  cases mapE (fun r => do
        let s ← choice pop n (draw r)
        pure (meanOf skip s) : Nat → Except Err (Fl K)) (List.range reps) with
  | error e => rfl
  | ok means =>
    simp only [Except.map, bind, Except.bind, quantile_sc ha, mean_sc]
    cases quantile means ((1 - conf) / 2) with
    | error e => rfl
    | ok lo =>
      cases quantile means (1 - (1 - conf) / 2) with
      | error e => rfl
      | ok hi => rfl

theorem bootArr_sc [FloorSemiring K] {a : K} (ha : 0 < a) (m : NDArr (Fl K)) (axes : Option (List Int)) (n reps : Nat)
    (conf : K) (skip : Bool) (draw : Nat → Nat → Nat → Nat) :
    bootArr (m.map (sc a)) axes n reps conf skip draw = emap (sc a) (bootArr m axes n reps conf skip draw) := by
  unfold bootArr
  rw [moveSampleAxes_map (sc_default a)]
  cases moveSampleAxes m axes with
  | error e => rfl
  | ok p =>
    obtain ⟨q, keep⟩ := p
    simp only [Except.map, bind, Except.bind, reshapeInfer_map]
    cases q.reshapeInfer [] [keep.prod] with
    | error e => rfl
    | ok m2 =>
      simp only [shape_map, col_map (sc_default a), bootVec_sc ha]
      rw [mapE_map (List.map (sc a)) fun c => bootVec (m2.col c) n reps conf skip (draw c)]
      cases mapE (fun c => bootVec (m2.col c) n reps conf skip (draw c)) (List.range (m2.shape.getD 1 0)) with
      | error e => rfl
      | ok cols =>
        simp only [Except.map]
        rw [emap, ← reshapeInfer_map, map_ofFn]
        congr 2
        funext idx
        rw [getD_map' (List.map (sc a)) cols _ [] [] rfl, getD_map' (sc a) _ _ none none rfl]

theorem bootOrAvg_sc [FloorSemiring K] {a : K} (ha : 0 < a) (skip : Bool) (axes : Option (List Int)) (boot : Option Nat)
    (reps : Nat) (conf : K) (draw : Nat → Nat → Nat → Nat) (m : NDArr (Fl K)) :
    bootOrAvg skip axes boot reps conf draw (m.map (sc a)) =
      emap (sc a) (bootOrAvg skip axes boot reps conf draw m) := by
  unfold bootOrAvg
  cases boot with
  | none =>
    cases skip
    · simp only [Bool.false_eq_true, if_false, reduceAxes_map (sc_default a), mean_sc, reduceAxes_post (sc_default a)]
    · simp only [if_true, reduceAxes_map (sc_default a), nanmean_sc, reduceAxes_post (sc_default a)]
  | some n => exact bootArr_sc ha m axes n reps conf skip draw

/-! ### errors, spread, variance -/

theorem errorArr_aff (a b : K) (f o : NDArr (Fl K)) :
    errorArr (f.map (aff a b)) (o.map (aff a b)) = emap (sc a) (errorArr f o) := by
  unfold errorArr
  rw [emap, zipWith_maps, map_zipWith']
  simp only [sub_aff]

theorem abErrorArr_aff {a : K} (ha : 0 < a) (b : K) (f o : NDArr (Fl K)) :
    abErrorArr (f.map (aff a b)) (o.map (aff a b)) = emap (sc a) (abErrorArr f o) := by
  have h := errorArr_aff a b f o
  unfold errorArr at h
  unfold abErrorArr
  rw [h]
  cases zipWith Fl.sub f o with
  | error e => rfl
  | ok d =>
    simp only [emap, Except.map, bind, Except.bind, pure, Except.pure, map_map, abs_sc ha]

theorem sqErrorArr_aff (a b : K) (f o : NDArr (Fl K)) :
    sqErrorArr (f.map (aff a b)) (o.map (aff a b)) = emap (sc (a * a)) (sqErrorArr f o) := by
  have h := errorArr_aff a b f o
  unfold errorArr at h
  unfold sqErrorArr
  rw [h]
  cases zipWith Fl.sub f o with
  | error e => rfl
  | ok d =>
    simp only [emap, Except.map, bind, Except.bind, pure, Except.pure, map_map, sq_sc]

theorem npVar_aff (a b : K) (l : List (Fl K)) : npVar (l.map (aff a b)) = sc (a * a) (npVar l) := by
  unfold npVar
  rw [← mean_sc, List.map_map, List.map_map, mean_aff]
  congr 1
  apply List.map_congr_left
  intro x _
  simp only [Function.comp, sub_aff, sq_sc]

theorem ensVariance_aff (a b : K) (f : NDArr (Fl K)) (ax : Int) :
    ensVariance (f.map (aff a b)) ax = emap (sc (a * a)) (ensVariance f ax) := by
  unfold ensVariance
  rw [reduceAxes_map (aff_default a b)]
  simp only [npVar_aff]
  exact reduceAxes_post (sc_default _) _ _ _

theorem max_aff {a : K} (ha : 0 < a) (b : K) (x y : Fl K) :
    Fl.max (aff a b x) (aff a b y) = aff a b (Fl.max x y) := by
  cases x <;> cases y <;> simp only [aff, Fl.max, Option.map]
  congr 1
  have : Monotone fun x : K => a * x + b := fun u v h => by
    have := mul_le_mul_of_nonneg_left h ha.le
    simpa using this
  exact (this.map_max).symm

theorem min_aff {a : K} (ha : 0 < a) (b : K) (x y : Fl K) :
    Fl.min (aff a b x) (aff a b y) = aff a b (Fl.min x y) := by
  cases x <;> cases y <;> simp only [aff, Fl.min, Option.map]
  congr 1
  have : Monotone fun x : K => a * x + b := fun u v h => by
    have := mul_le_mul_of_nonneg_left h ha.le
    simpa using this
  exact (this.map_min).symm

theorem foldl_aff {op : Fl K → Fl K → Fl K} {a b : K} (h : ∀ x y, op (aff a b x) (aff a b y) = aff a b (op x y))
    (l : List (Fl K)) (x : Fl K) : (l.map (aff a b)).foldl op (aff a b x) = aff a b (l.foldl op x) := by
  induction l generalizing x with
  | nil => rfl
  | cons y l ih => simp only [List.map_cons, List.foldl_cons, h, ih]

theorem npMax_aff {a : K} (ha : 0 < a) (b : K) (l : List (Fl K)) : npMax (l.map (aff a b)) = (npMax l).map (aff a b) := by
  cases l with
  | nil => rfl
  | cons x l => exact congrArg Except.ok (foldl_aff (max_aff ha b) l x)

theorem npMin_aff {a : K} (ha : 0 < a) (b : K) (l : List (Fl K)) : npMin (l.map (aff a b)) = (npMin l).map (aff a b) := by
  cases l with
  | nil => rfl
  | cons x l => exact congrArg Except.ok (foldl_aff (min_aff ha b) l x)

theorem nanMax_aff {a : K} (ha : 0 < a) (b : K) (l : List (Fl K)) :
    nanMax (l.map (aff a b)) = (nanMax l).map (aff a b) := by
  unfold nanMax
  have e : (l.map (aff a b)).filter Option.isSome = (l.filter Option.isSome).map (aff a b) := filter_isSome_map _ l
  rw [e]
  by_cases h : l = []
  · subst h; rfl
  · rw [if_neg h, if_neg (by simpa using h)]
    cases l.filter Option.isSome with
    | nil => rfl
    | cons x r => exact congrArg Except.ok (foldl_aff (max_aff ha b) r x)

theorem nanMin_aff {a : K} (ha : 0 < a) (b : K) (l : List (Fl K)) :
    nanMin (l.map (aff a b)) = (nanMin l).map (aff a b) := by
  unfold nanMin
  have e : (l.map (aff a b)).filter Option.isSome = (l.filter Option.isSome).map (aff a b) := filter_isSome_map _ l
  rw [e]
  by_cases h : l = []
  · subst h; rfl
  · rw [if_neg h, if_neg (by simpa using h)]
    cases l.filter Option.isSome with
    | nil => rfl
    | cons x r => exact congrArg Except.ok (foldl_aff (min_aff ha b) r x)

theorem ensSpread_aff {a : K} (ha : 0 < a) (b : K) (skip : Bool) (f : NDArr (Fl K)) (ax : Int) :
    ensSpread skip (f.map (aff a b)) ax = emap (sc a) (ensSpread skip f ax) := by
  unfold ensSpread
  have h1 : reduceAxesE (if skip then nanMax else npMax) (f.map (aff a b)) (some [ax]) =
      emap (aff a b) (reduceAxesE (if skip then nanMax else npMax) f (some [ax])) := by
    rw [reduceAxesE_map (aff_default a b), ← reduceAxesE_post (aff_default a b)]
    cases skip
    · simp only [Bool.false_eq_true, if_false, npMax_aff ha]
    · simp only [if_true, nanMax_aff ha]
  have h2 : reduceAxesE (if skip then nanMin else npMin) (f.map (aff a b)) (some [ax]) =
      emap (aff a b) (reduceAxesE (if skip then nanMin else npMin) f (some [ax])) := by
    rw [reduceAxesE_map (aff_default a b), ← reduceAxesE_post (aff_default a b)]
    cases skip
    · simp only [Bool.false_eq_true, if_false, npMin_aff ha]
    · simp only [if_true, nanMin_aff ha]
  rw [h1, h2]
  cases reduceAxesE (if skip then nanMax else npMax) f (some [ax]) with
  | error e => rfl
  | ok hi =>
    cases reduceAxesE (if skip then nanMin else npMin) f (some [ax]) with
    | error e => rfl
    | ok lo =>
      simp only [bind, Except.bind, emap, Except.map]
      have := errorArr_aff a b hi lo
      unfold errorArr at this
      rw [this]
      rfl

/-! ### roots and correlations -/

theorem sqrt_scale {s : K → K} (hs : IsSqrt s) {a : K} (ha : 0 < a) {x : K} (hx : 0 ≤ x) :
    s (a * a * x) = a * s x := by
  have h0 : 0 ≤ a * a * x := by positivity
  have h1 := hs.sq _ h0
  have h2 := hs.sq _ hx
  have h3 := hs.nonneg _ h0
  have h4 : 0 ≤ a * s x := mul_nonneg ha.le (hs.nonneg _ hx)
  have : s (a * a * x) * s (a * a * x) = (a * s x) * (a * s x) := by
    rw [h1, mul_mul_mul_comm, h2]
  exact (mul_self_inj h3 h4).1 this

theorem sqrt_sc {s : K → K} (hs : IsSqrt s) {a : K} (ha : 0 < a) (x : Fl K) :
    Fl.sqrt s (sc (a * a) x) = sc a (Fl.sqrt s x) := by
  cases x with
  | none => rfl
  | some x =>
    have hp : 0 < a * a := mul_pos ha ha
    simp only [sc, Option.map, Fl.sqrt]
    by_cases hx : 0 ≤ x
    · rw [if_pos hx, if_pos (mul_nonneg hp.le hx), sqrt_scale hs ha hx]
    · rw [if_neg hx, if_neg (fun h => hx (nonneg_of_mul_nonneg_right h hp))]

theorem cov_aff (a b a' b' : K) (u v : List (Fl K)) :
    cov (u.map (aff a b)) (v.map (aff a' b')) = sc (a * a') (cov u v) := by
  unfold cov
  rw [List.length_map]
  split
  · rfl
  · rw [← div_sc_left, ← fsum_sc, mean_aff, mean_aff, List.zipWith_map, List.map_zipWith]
    simp only [sub_aff, mul_sc]

theorem div_sc_both {a : K} (ha : a ≠ 0) (b : K) (x y : Fl K) : Fl.div (sc (a * b) x) (sc a y) = sc b (Fl.div x y) := by
  cases x <;> cases y <;> simp only [sc, Fl.div, Option.map]
  rename_i x y
  by_cases hy : y = 0
  · subst hy; simp
  · rw [if_neg (mul_ne_zero ha hy), if_neg hy]
    congr 1
    field_simp

theorem corrcoef_aff {s : K → K} (hs : IsSqrt s) {a a' : K} (ha : 0 < a) (ha' : 0 < a') (b b' : K) (x y : List (Fl K)) :
    corrcoef s (x.map (aff a b)) (y.map (aff a' b')) = corrcoef s x y := by
  unfold corrcoef
  rw [cov_aff, cov_aff, cov_aff, sqrt_sc hs ha, sqrt_sc hs ha', div_sc_both ha.ne', ]
  have := div_sc_both ha'.ne' 1 (Fl.div (cov x y) (Fl.sqrt s (cov x x))) (Fl.sqrt s (cov y y))
  rw [mul_one] at this
  rw [this, sc_one]

theorem dropNanPairs_aff (a b a' b' : K) (f o : List (Fl K)) :
    dropNanPairs (f.map (aff a b)) (o.map (aff a' b')) =
      ((dropNanPairs f o).1.map (aff a b), (dropNanPairs f o).2.map (aff a' b')) := by
  unfold dropNanPairs
  rw [List.zip_map, List.filter_map]
  have e : ((fun p : Fl K × Fl K => p.1.isSome && p.2.isSome) ∘ Prod.map (aff a b) (aff a' b')) =
      fun p => p.1.isSome && p.2.isSome := by
    funext p
    obtain ⟨x, y⟩ := p
    cases x <;> cases y <;> rfl
  rw [e]
  generalize List.filter _ (f.zip o) = l
  induction l with
  | nil => rfl
  | cons p l ih => simp_all [List.unzip_eq_map]

theorem funcCorr_aff {s : K → K} (hs : IsSqrt s) {a a' : K} (ha : 0 < a) (ha' : 0 < a') (b b' : K) (skip : Bool)
    (x y : List (Fl K)) : funcCorr s skip (x.map (aff a b)) (y.map (aff a' b')) = funcCorr s skip x y := by
  unfold funcCorr
  simp only [dropNanPairs_aff, corrcoef_aff hs ha ha']

theorem funcCorrBoot_aff [FloorSemiring K] {s : K → K} (hs : IsSqrt s) {a a' : K} (ha : 0 < a) (ha' : 0 < a') (b b' : K)
    (skip : Bool) (n reps : Nat) (conf : K) (draw : Nat → Nat → Nat) (x y : List (Fl K)) :
    funcCorrBoot s skip n reps conf draw (x.map (aff a b)) (y.map (aff a' b')) =
      funcCorrBoot s skip n reps conf draw x y := by
  unfold funcCorrBoot
  have e : ∀ (idx : List Nat) (u : List (Fl K)) (a b : K),
      idx.map ((u.map (aff a b)).getD · none) = (idx.map (u.getD · none)).map (aff a b) := by
    intro idx u a b
    rw [List.map_map]
    apply List.map_congr_left
    intro i _
    exact getD_map' (aff a b) u i none none rfl
  simp only [List.length_map, e, corrcoef_aff hs ha ha']

theorem row_map {α β : Type} [Inhabited α] [Inhabited β] {φ : α → β} (hφ : φ default = default) (c : NDArr α) (k : Nat) :
    (c.map φ).row k = (c.row k).map φ := by
  unfold row
  rw [List.map_map]
  exact List.map_congr_left fun j _ => get_map' hφ c _

theorem transposeAx_map {α β : Type} [Inhabited α] [Inhabited β] {φ : α → β} (hφ : φ default = default) (a : NDArr α)
    (l : List Int) : (a.map φ).transposeAx l = emap φ (a.transposeAx l) := by
  unfold transposeAx
  have hn : (a.map φ).ndim = a.ndim := rfl
  by_cases h : l.length ≠ a.ndim
  · rw [if_pos h, if_pos (hn ▸ h)]; rfl
  · rw [if_neg h, if_neg (hn ▸ h), hn]
    simp only [transpose_map hφ]
    cases mapE (normAxis a.ndim) l with
    | error e => rfl
    | ok p =>
      simp only [bind, Except.bind]
      split <;> rfl

theorem specialWorkflow_map [FloorSemiring K] {φ ψ : Fl K → Fl K} (hφ : φ default = default) (hψ : ψ default = default)
    (func : Nat → List (Fl K) → List (Fl K) → Except Err (List (Fl K))) (f o : NDArr (Fl K)) (ax : Option (List Int)) :
    specialWorkflow func (f.map φ) (o.map ψ) ax =
      specialWorkflow (fun i x y => func i (x.map φ) (y.map ψ)) f o ax := by
  unfold specialWorkflow
  by_cases h : f.shape ≠ o.shape
  · rw [if_pos h, if_pos (show (f.map φ).shape ≠ (o.map ψ).shape from h)]
  · rw [if_neg h, if_neg (show ¬ (f.map φ).shape ≠ (o.map ψ).shape from h)]
    have hn : (o.map ψ).ndim = o.ndim := rfl
    rw [hn]
    simp only [transposeAx_map hφ, transposeAx_map hψ]
    generalize hL : (List.filter _ _ ++ _ : List Int) = L
    cases o.transposeAx L with
    | error e => rfl
    | ok o1 =>
      cases f.transposeAx L with
      | error e => rfl
      | ok f1 =>
        simp only [emap, Except.map, bind, Except.bind, shape_map, reshape_map]
        generalize hS : [_, _] = S
        cases o1.reshape S with
        | error e => rfl
        | ok o2 =>
          cases f1.reshape S with
          | error e => rfl
          | ok f2 => simp only [shape_map, row_map hφ, row_map hψ]

theorem corr_aff [FloorSemiring K] {s : K → K} (hs : IsSqrt s) {a a' : K} (ha : 0 < a) (ha' : 0 < a') (b b' : K)
    (skip : Bool) (f o : NDArr (Fl K)) (ax : Option (List Int)) :
    corr s skip (f.map (aff a b)) (o.map (aff a' b')) ax = corr s skip f o ax := by
  unfold corr
  rw [specialWorkflow_map (aff_default a b) (aff_default a' b')]
  simp only [funcCorr_aff hs ha ha']

theorem corrBoot_aff [FloorSemiring K] {s : K → K} (hs : IsSqrt s) {a a' : K} (ha : 0 < a) (ha' : 0 < a') (b b' : K)
    (skip : Bool) (f o : NDArr (Fl K)) (ax : Option (List Int)) (n reps : Nat) (conf : K)
    (draw : Nat → Nat → Nat → Nat) :
    corrBoot s skip (f.map (aff a b)) (o.map (aff a' b')) ax n reps conf draw =
      corrBoot s skip f o ax n reps conf draw := by
  unfold corrBoot
  rw [specialWorkflow_map (aff_default a b) (aff_default a' b')]
  simp only [funcCorrBoot_aff hs ha ha']

/-! ### binned spread-skill -/

/-- the sorting algorithm only compares: multiplying all values by a positive number does not change the order it
returns -/
def ScaleFree (argsort : Nat → List (Fl K) → List Nat) : Prop :=
  ∀ a : K, 0 < a → ∀ i l, argsort i (l.map (sc a)) = argsort i l

theorem arraySplit0_map {α β : Type} [Inhabited α] [Inhabited β] {φ : α → β} (hφ : φ default = default) (a : NDArr α)
    (n : Nat) : arraySplit0 (a.map φ) n = (arraySplit0 a n).map (List.map (NDArr.map φ)) := by
  unfold arraySplit0
  split
  · rfl
  · simp only [Except.map, List.map_map, shape_map]
    congr 1
    apply List.map_congr_left
    intro b _
    simp only [Function.comp, map_ofFn]
    congr 1
    funext idx
    exact get_map' hφ a _

theorem ssCreateSplit_sc [FloorSemiring K] {argsort : Nat → List (Fl K) → List Nat} (h : ScaleFree argsort) {a : K}
    (ha : 0 < a) (v e : NDArr (Fl K)) (n : Nat) (ax : Option (List Int)) :
    ssCreateSplit argsort (v.map (sc a)) (e.map (sc a)) n ax =
      (ssCreateSplit argsort v e n ax).map fun p => (p.1.map (NDArr.map (sc a)), p.2) := by
  have hφ := sc_default a
  unfold ssCreateSplit
  by_cases hsh : v.shape ≠ e.shape
  · rw [if_pos hsh, if_pos (show (v.map (sc a)).shape ≠ (e.map (sc a)).shape from hsh)]; rfl
  · rw [if_neg hsh, if_neg (show ¬ (v.map (sc a)).shape ≠ (e.map (sc a)).shape from hsh)]
    have hn : (v.map (sc a)).ndim = v.ndim := rfl
    rw [hn]
    simp only [moveSampleAxes_map hφ]
    cases moveSampleAxes v (some (resolveAxes v.ndim ax)) with
    | error e => rfl
    | ok p =>
      obtain ⟨v1, keep⟩ := p
      cases moveSampleAxes e (some (resolveAxes v.ndim ax)) with
      | error e => rfl
      | ok q =>
        obtain ⟨e1, keep'⟩ := q
        simp only [Except.map, bind, Except.bind, reshapeInfer_map]
        cases v1.reshapeInfer [] [keep.prod] with
        | error e => rfl
        | ok v2 =>
          cases e1.reshapeInfer [] [keep.prod] with
          | error e => rfl
          | ok e2 =>
            simp only [shape_map, shape_ofFn, col_map hφ, h a ha]
            by_cases hn : n ≤ e2.shape.getD 0 0
            · simp only [hn, not_true, if_false]
              generalize hA : ofFn [v2.shape.getD 0 0, 2, v2.shape.getD 1 0] _ = A
              generalize hB : ofFn [v2.shape.getD 0 0, 2, v2.shape.getD 1 0] _ = B
              have hAB : A = B.map (sc a) := by
                subst hA; subst hB
                rw [map_ofFn]
                congr 1
                funext idx
                have hv : (ofFn v2.shape fun idx => (v2.map (sc a)).get
                    [(argsort (idx.getD 1 0) (v2.col (idx.getD 1 0))).getD (idx.getD 0 0) 0, idx.getD 1 0]) =
                    (ofFn v2.shape fun idx => v2.get
                    [(argsort (idx.getD 1 0) (v2.col (idx.getD 1 0))).getD (idx.getD 0 0) 0, idx.getD 1 0]).map (sc a) := by
                  rw [map_ofFn]
                  simp only [get_map' hφ]
                have he : (ofFn e2.shape fun idx => (e2.map (sc a)).get
                    [(argsort (idx.getD 1 0) (v2.col (idx.getD 1 0))).getD (idx.getD 0 0) 0, idx.getD 1 0]) =
                    (ofFn e2.shape fun idx => e2.get
                    [(argsort (idx.getD 1 0) (v2.col (idx.getD 1 0))).getD (idx.getD 0 0) 0, idx.getD 1 0]).map (sc a) := by
                  rw [map_ofFn]
                  simp only [get_map' hφ]
                rw [hv, he, get_map' hφ, get_map' hφ]
                split <;> rfl
              rw [hAB, arraySplit0_map hφ]
              cases arraySplit0 B n <;> rfl
            · simp only [hn, not_false_iff, if_true]

theorem column3_map {a : K} (arr : NDArr (Fl K)) (c i : Nat) :
    column3 (arr.map (sc a)) c i = (column3 arr c i).map (sc a) := by
  unfold column3
  rw [List.map_map]
  exact List.map_congr_left fun j _ => get_map' (sc_default a) arr _

theorem pieces_getD (a : K) (l : List (NDArr (Fl K))) (b : Nat) :
    (l.map (NDArr.map (sc a))).getD b default = (l.getD b default).map (sc a) :=
  getD_map' (NDArr.map (sc a)) l b default default rfl

theorem ssStat_sc [FloorSemiring K] {s : K → K} (hs : IsSqrt s) {a : K} (ha : 0 < a) (skip : Bool)
    (pieces : List (NDArr (Fl K))) (keep : List Nat) (c : Nat) :
    ssStat s skip (pieces.map (NDArr.map (sc (a * a)))) keep c = emap (sc a) (ssStat s skip pieces keep c) := by
  unfold ssStat
  have hc : (((pieces.map (NDArr.map (sc (a * a)))).head?.map (·.shape)).getD []).getD 2 0 =
      ((pieces.head?.map (·.shape)).getD []).getD 2 0 := by
    cases pieces <;> rfl
  rw [hc]
  simp only [List.length_map]
  by_cases h : ((pieces.head?.map (·.shape)).getD []).getD 2 0 ≠ keep.prod
  · rw [if_pos h, if_pos h]; rfl
  · rw [if_neg h, if_neg h]
    simp only [pieces_getD, column3_map, meanOf_sc, map_ofFn, sqrt_sc hs ha]
    rw [← map_ofFn (sc a) _ fun idx => Fl.sqrt s (meanOf skip (column3 (pieces.getD (idx.getD 0 0) default) c (idx.getD 1 0))),
      reshape_map]
    cases (ofFn [pieces.length, ((pieces.head?.map (·.shape)).getD []).getD 2 0] fun idx =>
        Fl.sqrt s (meanOf skip (column3 (pieces.getD (idx.getD 0 0) default) c (idx.getD 1 0)))).reshape
        (pieces.length :: keep) with
    | error e => rfl
    | ok r => exact moveaxis_map (sc_default a) r 0 (-1)

theorem ssAggNoBoot_sc [FloorSemiring K] {s : K → K} (hs : IsSqrt s) {a : K} (ha : 0 < a) (skip : Bool)
    (pieces : List (NDArr (Fl K))) (keep : List Nat) :
    ssAggNoBoot s skip (pieces.map (NDArr.map (sc (a * a)))) keep =
      (ssAggNoBoot s skip pieces keep).map fun p => (p.1.map (sc a), p.2.map (sc a)) := by
  unfold ssAggNoBoot
  rw [ssStat_sc hs ha, ssStat_sc hs ha]
  cases ssStat s skip pieces keep 0 with
  | error e => rfl
  | ok x => cases ssStat s skip pieces keep 1 <;> rfl

theorem ssBootBin_sc [FloorSemiring K] {a : K} (ha : 0 < a) (arr : NDArr (Fl K)) (i n reps : Nat) (conf : K) (skip : Bool)
    (draw : Nat → Nat → Nat) :
    ssBootBin (arr.map (sc a)) i n reps conf skip draw =
      (ssBootBin arr i n reps conf skip draw).map fun p => (p.1.map (sc a), p.2.map (sc a)) := by
  unfold ssBootBin
  by_cases h : arr.shape.getD 0 0 = 0 ∧ reps ≠ 0
  · rw [if_pos (show (arr.map (sc a)).shape.getD 0 0 = 0 ∧ reps ≠ 0 from h), if_pos h]; rfl
  · rw [if_neg (show ¬((arr.map (sc a)).shape.getD 0 0 = 0 ∧ reps ≠ 0) from h), if_neg h]
    simp only [shape_map]
    have e : (fun r => do
        let idx ← choice (List.range (arr.shape.getD 0 0)) n (draw r)
        pure (meanOf skip (idx.map fun j => (arr.map (sc a)).get [j, 0, i]),
          meanOf skip (idx.map fun j => (arr.map (sc a)).get [j, 1, i])) : Nat → Except Err (Fl K × Fl K)) =
        fun r => (do
        let idx ← choice (List.range (arr.shape.getD 0 0)) n (draw r)
        pure (meanOf skip (idx.map fun j => arr.get [j, 0, i]),
          meanOf skip (idx.map fun j => arr.get [j, 1, i])) : Except Err (Fl K × Fl K)).map (Prod.map (sc a) (sc a)) := by
      funext r
      cases choice (List.range (arr.shape.getD 0 0)) n (draw r) with
      | error e => rfl
      | ok idx =>
        have hm : ∀ c, (idx.map fun j => (arr.map (sc a)).get [j, c, i]) = (idx.map fun j => arr.get [j, c, i]).map (sc a) := by
          intro c
          rw [List.map_map]
          exact List.map_congr_left fun j _ => get_map' (sc_default a) arr _
        simp only [bind, Except.bind, hm, meanOf_sc]
        rfl
    rw [e, mapE_map]
    generalize (mapE _ (List.range reps) : Except Err (List (Fl K × Fl K))) = st
    cases st with
    | error e => rfl
    | ok st =>
      simp only [Except.map, bind, Except.bind, List.map_map]
      have h1 : st.map (Prod.fst ∘ Prod.map (sc a) (sc a)) = (st.map Prod.fst).map (sc a) := by simp
      have h2 : st.map (Prod.snd ∘ Prod.map (sc a) (sc a)) = (st.map Prod.snd).map (sc a) := by simp
      rw [h1, h2]
      simp only [quantile_sc ha, mean_sc]
      cases quantile (st.map Prod.fst) (1 - conf) with
      | error e => rfl
      | ok lo =>
        cases quantile (st.map Prod.fst) conf with
        | error e => rfl
        | ok hi =>
          cases quantile (st.map Prod.snd) (1 - conf) with
          | error e => rfl
          | ok lo' => cases quantile (st.map Prod.snd) conf <;> rfl

theorem ssBootStat_sc [FloorSemiring K] {s : K → K} (hs : IsSqrt s) {a : K} (ha : 0 < a) (rows : List (List (Fl K)))
    (nb : Nat) (keep : List Nat) :
    ssBootStat s (rows.map (List.map (sc (a * a)))) nb keep = emap (sc a) (ssBootStat s rows nb keep) := by
  unfold ssBootStat
  simp only [List.length_map]
  by_cases h : rows.length ≠ keep.prod * nb
  · rw [if_pos h, if_pos h]; rfl
  · rw [if_neg h, if_neg h]
    have e : ∀ i j, ((rows.map (List.map (sc (a * a)))).getD i []).getD j none = sc (a * a) ((rows.getD i []).getD j none) := by
      intro i j
      rw [getD_map' (List.map (sc (a * a))) rows i [] [] rfl, getD_map' (sc (a * a)) _ j none none rfl]
    simp only [e, map_ofFn, sqrt_sc hs ha]
    rw [← map_ofFn (sc a) _ fun idx => Fl.sqrt s ((rows.getD (idx.getD 0 0) []).getD (idx.getD 1 0) none), reshape_map]
    cases (ofFn [rows.length, 3] fun idx =>
        Fl.sqrt s ((rows.getD (idx.getD 0 0) []).getD (idx.getD 1 0) none)).reshape (nb :: keep ++ [3]) with
    | error e => rfl
    | ok r => exact moveaxis_map (sc_default a) r 0 (-2)

theorem ssAggBoot_sc [FloorSemiring K] {s : K → K} (hs : IsSqrt s) {a : K} (ha : 0 < a) (skip : Bool)
    (pieces : List (NDArr (Fl K))) (keep : List Nat) (n reps : Nat) (conf : K) (draw : Nat → Nat → Nat → Nat → Nat) :
    ssAggBoot s skip (pieces.map (NDArr.map (sc (a * a)))) keep n reps conf draw =
      (ssAggBoot s skip pieces keep n reps conf draw).map fun p => (p.1.map (sc a), p.2.map (sc a)) := by
  have haa : 0 < a * a := mul_pos ha ha
  unfold ssAggBoot
  simp only [pieces_getD, shape_map, ssBootBin_sc haa, List.length_map]
  have e : (fun b => mapE (fun i => (ssBootBin (pieces.getD b default) i n reps conf skip (draw b i)).map
        fun p => (p.1.map (sc (a * a)), p.2.map (sc (a * a)))) (List.range ((pieces.getD b default).shape.getD 2 0))) =
      fun b => (mapE (fun i => ssBootBin (pieces.getD b default) i n reps conf skip (draw b i))
        (List.range ((pieces.getD b default).shape.getD 2 0))).map
          (List.map fun p => (p.1.map (sc (a * a)), p.2.map (sc (a * a)))) := by
    funext b
    exact mapE_map _ _ _
  rw [e, mapE_map]
  generalize (mapE _ (List.range pieces.length) : Except Err (List (List (List (Fl K) × List (Fl K))))) = rs
  cases rs with
  | error e => rfl
  | ok rs =>
    simp only [Except.map, bind, Except.bind]
    have h1 : (List.map (List.map fun p : List (Fl K) × List (Fl K) => (p.1.map (sc (a * a)), p.2.map (sc (a * a)))) rs).flatten.map
        Prod.fst = (rs.flatten.map Prod.fst).map (List.map (sc (a * a))) := by
      rw [← List.map_flatten, List.map_map, List.map_map]; rfl
    have h2 : (List.map (List.map fun p : List (Fl K) × List (Fl K) => (p.1.map (sc (a * a)), p.2.map (sc (a * a)))) rs).flatten.map
        Prod.snd = (rs.flatten.map Prod.snd).map (List.map (sc (a * a))) := by
      rw [← List.map_flatten, List.map_map, List.map_map]; rfl
    rw [h1, h2, ssBootStat_sc hs ha, ssBootStat_sc hs ha]
    cases ssBootStat s (rs.flatten.map Prod.fst) pieces.length keep with
    | error e => rfl
    | ok x => cases ssBootStat s (rs.flatten.map Prod.snd) pieces.length keep <;> rfl

end Lemmas
