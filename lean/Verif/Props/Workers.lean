import Verif.Lemmas.Workers
import Verif.Lemmas.Repr
import Verif.Props.EndToEndProbCase
import Verif.Props.Jobs

/-!
# Worker processes that save into the same working directory: C111
-/

set_option linter.unusedSectionVars false

namespace Props
open Np NDArr Model Spec

variable {X V A B : Type}

/-- **C111**, the full claim: an integration by worker processes that save into the working directory gives, whenever all
tasks have ended, what one process gives that saves nothing: the same array, or an exception if that raises.  This is for every
interleaving of the tasks and every order in which their results are fetched; the working directory may hold earlier results. -/
def C111_statement (I : ArgInfo A) (P : Prims X V A) (F : Pickle V B) : Prop :=
  ∀ (x : X) (kind : Kind) (pts : List A) (wd : Option Path) (disk : Disk B) (seed : Nat → Nat → Nat)
    (sched : List (Fin pts.length)) (pick : Nat → Nat) (w : World V) (res : Except Err V),
    P.grid x = .ok pts → EarlierFiles F wd I P x pts disk →
    parallelIntegral F wd .hurdle I P x kind pts disk seed sched pick = some res →
    ∀ v, res = .ok v ↔ memo (slotBody .hurdle I P x .none .none (methodOf kind)) w = .ok v

/-- the integral of one process that saves nothing -/
theorem memo_integral {I : ArgInfo A} {P : Prims X V A} {x : X} {pts : List A} (hg : P.grid x = .ok pts) (kind : Kind)
    (w : World V) :
    memo (slotBody .hurdle I P x .none .none (methodOf kind)) w =
      (mapE (fun a => memo (taskProg .hurdle I P x kind a) w) pts >>= sumRows P x kind) := by
  have h := callAll_memo (task .hurdle I P x kind) pts (fun a _ => det_task I P x kind a) (sumRows P x kind) w w
  refine Eq.trans ?_ h
  cases kind
  · simp only [methodOf, slotBody, hg]
    rfl
  · simp only [methodOf, slotBody, fDetBody, cdfAll, hg]
    rfl
  · simp only [methodOf, slotBody, varBody, cdfAll, hg]
    rfl

/-- **C111**, the true part: the points of the grid are distinct. -/
theorem C111_values_partial {I : ArgInfo A} (hI : TextOK I) (P : Prims X V A) {F : Pickle V B} (hF : PickleOK F) {x : X}
    (kind : Kind) {pts : List A} (hg : P.grid x = .ok pts) (hnd : pts.Nodup) {wd : Option Path} {disk : Disk B}
    (hdisk : EarlierFiles F wd I P x pts disk) (seed : Nat → Nat → Nat) (sched : List (Fin pts.length))
    (pick : Nat → Nat) (w : World V) {res : Except Err V}
    (h : parallelIntegral F wd .hurdle I P x kind pts disk seed sched pick = some res) (v : V) :
    res = .ok v ↔ memo (slotBody .hurdle I P x .none .none (methodOf kind)) w = .ok v := by
  unfold parallelIntegral at h
  cases hall : allEnded (workers F wd .hurdle I P x kind pts disk seed sched) with
  | none => rw [hall] at h; cases h
  | some l =>
    rw [hall] at h
    have hrow : ∀ i : Fin pts.length, ended ((workers F wd .hurdle I P x kind pts disk seed sched).job i).state =
        some (memo (taskProg .hurdle I P x kind pts[i]) w) := by
      intro i
      obtain ⟨r, hr⟩ := allEnded_all hall i
      rw [hr, (worker_right hF hI kind hnd hdisk seed i w).1 sched r hr]
    have hl := allEnded_some hrow
    rw [hall] at hl
    have hl' := Option.some.inj hl
    rw [map_finRange_zipIdx pts fun a => memo (taskProg .hurdle I P x kind a) w] at hl'
    subst hl'
    have hres := (Option.some.inj h).symm
    dsimp only at hres
    rw [hres, memo_integral hg kind w]
    have hiff := rayRows_iff pick (fun a => memo (taskProg .hurdle I P x kind a) w) pts
    constructor
    · intro hv
      cases hr : rayRows pick (pts.zipIdx.map fun p => (p.2, memo (taskProg .hurdle I P x kind p.1) w)) with
      | error e => rw [hr] at hv; cases hv
      | ok rows =>
        rw [hr] at hv
        rw [(hiff rows).1 hr]
        exact hv
    · intro hv
      cases hr : mapE (fun a => memo (taskProg .hurdle I P x kind a) w) pts with
      | error e => rw [hr] at hv; cases hv
      | ok rows =>
        rw [hr] at hv
        rw [(hiff rows).2 hr]
        exact hv

/-- **C111**: with distinct points no task waits for another one: all have ended when each has been given enough steps. -/
theorem C111_ends {I : ArgInfo A} (hI : TextOK I) (P : Prims X V A) {F : Pickle V B} (hF : PickleOK F) {x : X}
    (kind : Kind) {pts : List A} (hnd : pts.Nodup) {wd : Option Path} {disk : Disk B}
    (hdisk : EarlierFiles F wd I P x pts disk) (seed : Nat → Nat → Nat) :
    ∃ N, ∀ (sched : List (Fin pts.length)) (pick : Nat → Nat), (∀ i, N ≤ sched.count i) →
      ∃ res, parallelIntegral F wd .hurdle I P x kind pts disk seed sched pick = some res := by
  have w0 : World V := ⟨fun _ => none, fun _ => 0, 0, []⟩
  choose M hM using fun i : Fin pts.length => (worker_right hF hI kind hnd hdisk seed i w0).2
  refine ⟨(List.ofFn M).sum, fun sched pick hs => ?_⟩
  have h1 : ∀ i, ∃ r, ended ((workers F wd .hurdle I P x kind pts disk seed sched).job i).state = some r := by
    intro i
    apply hM i sched
    refine le_trans ?_ (hs i)
    exact List.single_le_sum (fun _ _ => Nat.zero_le _) _ (List.mem_ofFn.2 ⟨i, rfl⟩)
  choose r hr using h1
  exact ⟨_, by unfold parallelIntegral; rw [allEnded_some hr]; rfl⟩

/-! ### the grid of the hurdle class -/

section grid
variable {K : Type} [Field K] [LinearOrder K] [IsStrictOrderedRing K] [FloorSemiring K]

theorem linspace_nodup (lo hi : K) (n : ℕ) : (linspace lo hi n).Nodup ↔ n ≤ 1 ∨ lo ≠ hi := by
  unfold linspace
  by_cases hn : n ≤ 1
  · rw [if_pos hn]
    simp only [hn, true_or, iff_true]
    rw [List.nodup_replicate]
    exact hn
  · rw [if_neg hn]
    simp only [hn, false_or]
    have hn1 : ((n - 1 : ℕ) : K) ≠ 0 := by
      rw [Nat.cast_ne_zero]
      omega
    have hval : ∀ i : ℕ, (if i = n - 1 then hi else lo + (i : K) * ((hi - lo) / ((n - 1 : ℕ) : K))) =
        lo + (i : K) * ((hi - lo) / ((n - 1 : ℕ) : K)) := by
      intro i
      split
      · rename_i h
        subst h
        field_simp
        ring
      · rfl
    simp only [hval]
    constructor
    · rintro h rfl
      have h01 := List.pairwise_map.1 h
      rw [List.pairwise_iff_getElem] at h01
      have := h01 0 1 (by simp; omega) (by simp; omega) (by omega)
      simp at this
    · intro h
      refine List.Nodup.map ?_ List.nodup_range
      intro i j hij
      have hs : (hi - lo) / ((n - 1 : ℕ) : K) ≠ 0 := div_ne_zero (sub_ne_zero.2 (Ne.symm h)) hn1
      have := mul_right_cancel₀ hs (add_left_cancel hij)
      exact_mod_cast this

theorem foldl_min_spec (l : List (Fl K)) (x : Fl K) {a : K} (h : l.foldl Fl.min x = some a) :
    some a ∈ x :: l ∧ ∀ u ∈ x :: l, ∃ v, u = some v ∧ a ≤ v := by
  induction l generalizing x with
  | nil =>
    obtain rfl : x = some a := h
    simp
  | cons y l ih =>
    obtain ⟨h1, h2⟩ := ih _ h
    obtain ⟨m, hm, ham⟩ := h2 _ List.mem_cons_self
    cases x with
    | none => cases hm
    | some p =>
      cases y with
      | none => cases hm
      | some q =>
        have hm' : min p q = m := Option.some.inj hm
        constructor
        · rcases List.mem_cons.1 h1 with h | h
          · have h' : a = min p q := Option.some.inj h
            rcases min_choice p q with hc | hc <;> rw [h', hc] <;> simp
          · exact List.mem_cons_of_mem _ (List.mem_cons_of_mem _ h)
        · intro u hu
          rcases List.mem_cons.1 hu with rfl | hu
          · exact ⟨p, rfl, ham.trans (hm' ▸ min_le_left p q)⟩
          · rcases List.mem_cons.1 hu with rfl | hu
            · exact ⟨q, rfl, ham.trans (hm' ▸ min_le_right p q)⟩
            · exact h2 u (List.mem_cons_of_mem _ hu)

theorem foldl_max_spec (l : List (Fl K)) (x : Fl K) {a : K} (h : l.foldl Fl.max x = some a) :
    some a ∈ x :: l ∧ ∀ u ∈ x :: l, ∃ v, u = some v ∧ v ≤ a := by
  induction l generalizing x with
  | nil =>
    obtain rfl : x = some a := h
    simp
  | cons y l ih =>
    obtain ⟨h1, h2⟩ := ih _ h
    obtain ⟨m, hm, ham⟩ := h2 _ List.mem_cons_self
    cases x with
    | none => cases hm
    | some p =>
      cases y with
      | none => cases hm
      | some q =>
        have hm' : max p q = m := Option.some.inj hm
        constructor
        · rcases List.mem_cons.1 h1 with h | h
          · have h' : a = max p q := Option.some.inj h
            rcases max_choice p q with hc | hc <;> rw [h', hc] <;> simp
          · exact List.mem_cons_of_mem _ (List.mem_cons_of_mem _ h)
        · intro u hu
          rcases List.mem_cons.1 hu with rfl | hu
          · exact ⟨p, rfl, (hm' ▸ le_max_left p q).trans ham⟩
          · rcases List.mem_cons.1 hu with rfl | hu
            · exact ⟨q, rfl, (hm' ▸ le_max_right p q).trans ham⟩
            · exact h2 u (List.mem_cons_of_mem _ hu)

/-- the smallest and the largest number of a list without NaN -/
theorem npMin_npMax_eq {l : List (Fl K)} {a b : K} (h1 : npMin l = .ok (some a)) (h2 : npMax l = .ok (some b)) :
    (a = b ↔ ∀ u ∈ l, ∀ v ∈ l, u = v) ∧ a ≤ b := by
  cases l with
  | nil => cases h1
  | cons x l =>
    obtain ⟨m1, m2⟩ := foldl_min_spec l x (Except.ok.inj h1)
    obtain ⟨n1, n2⟩ := foldl_max_spec l x (Except.ok.inj h2)
    refine ⟨⟨?_, fun h => Option.some.inj (h _ m1 _ n1)⟩, ?_⟩
    · rintro rfl u hu v hv
      obtain ⟨p, rfl, hp⟩ := m2 u hu
      obtain ⟨p', e, hp'⟩ := n2 _ hu
      cases e
      obtain ⟨q, rfl, hq⟩ := m2 v hv
      obtain ⟨q', e, hq'⟩ := n2 _ hv
      cases e
      rw [le_antisymm hp' hp, le_antisymm hq' hq]
    · obtain ⟨v, e, hv⟩ := n2 _ m1
      cases e
      exact hv

/-- **C111**: when the points are distinct.  The verifier has at least two bins: then the integration range must not be a single
point, and a range that is not given must not come from constant observations. -/
theorem C111_distinct {A : Type} (c : Cfg K) (F : ProbFns K) (emb : A → Arg K) {ofNum : K → A}
    (hinj : Function.Injective ofNum) {x : ProbX K} {pts : List A} {n : ℤ} (hn : x.nbins = some n) (h2 : 2 ≤ n)
    (hg : (hurdlePrims c F emb ofNum).grid x = .ok pts) :
    pts.Nodup ↔ match x.range with
      | some l => ∃ lo hi, l = [lo, hi] ∧ lo ≠ hi
      | none => ∃ u ∈ x.o.data, ∃ v ∈ x.o.data, u ≠ v := by
  have hg' : (hurdleSeq F x).map (fun l => l.map ofNum) = .ok pts := by
    rw [← hg]
    simp only [hurdlePrims, bind, Except.bind, pure, Except.pure]
    cases hurdleSeq F x <;> rfl
  cases hq : hurdleSeq F x with
  | error e => rw [hq] at hg'; cases hg'
  | ok seq =>
    rw [hq] at hg'
    obtain rfl : seq.map ofNum = pts := Except.ok.inj hg'
    rw [List.nodup_map_iff hinj]
    have hkey : ∀ lo hi : K, (linspace lo hi n.toNat).Nodup ↔ lo ≠ hi := by
      intro lo hi
      rw [linspace_nodup]
      have : ¬ n.toNat ≤ 1 := by omega
      simp [this]
    have hn0 : (0 : ℤ) ≤ n := by omega
    unfold hurdleSeq at hq
    cases hr : x.range with
    | some l =>
      rw [hr] at hq
      rcases l with - | ⟨lo, - | ⟨hi, - | ⟨z, l⟩⟩⟩
      · cases hq
      · cases hq
      · simp only [integrationRange, hn, hn0, ↓reduceIte, bind, Except.bind, pure, Except.pure, Except.ok.injEq] at hq
        subst hq
        rw [hkey]
        constructor
        · exact fun h => ⟨lo, hi, rfl, h⟩
        · rintro ⟨_, _, e, h⟩
          cases e
          exact h
      · cases hq
    | none =>
      rw [hr] at hq
      by_cases hm : F.rangeMulti > 0
      · simp only [integrationRange, bind, Except.bind, pure, Except.pure, hm, ↓reduceIte] at hq
        cases h1 : npMin x.o.data with
        | error e => rw [h1] at hq; cases hq
        | ok a =>
          cases h2 : npMax x.o.data with
          | error e => rw [h1, h2] at hq; cases hq
          | ok b =>
            rw [h1, h2] at hq
            cases a with
            | none => cases b <;> cases hq
            | some a =>
              cases b with
              | none => cases hq
              | some b =>
                simp only [Fl.sub, Fl.mul, Fl.add, Fl.lift2, hn, hn0, ↓reduceIte, Except.ok.injEq] at hq
                subst hq
                obtain ⟨hab, hle⟩ := npMin_npMax_eq h1 h2
                have hm' : (0 : K) < (F.rangeMulti : K) := by exact_mod_cast hm
                rw [hkey]
                have : (a - (F.rangeMulti : K) * (b - a) = b + (F.rangeMulti : K) * (b - a)) ↔ a = b := by
                  constructor
                  · intro h
                    have : 0 ≤ (F.rangeMulti : K) * (b - a) := mul_nonneg hm'.le (sub_nonneg.2 hle)
                    linarith
                  · rintro rfl
                    ring
                rw [ne_eq, this, hab]
                push Not
                rfl
      · simp only [integrationRange, bind, Except.bind, pure, Except.pure, hm, ↓reduceIte] at hq
        cases hq

end grid

/-! ### constant observations -/

/-- both observations are 2, and no integration range is given -/
def flatX : ProbX ℚ := { hurdleX with o := ⟨[2], [some 2, some 2], rfl⟩, range := none }

abbrev hurdleQ : Prims (ProbX ℚ) (PyVal ℚ) ℚ := hurdlePrims caseCfg fnsQ embRat id

/-- three workers in an empty working directory -/
def par3 (x : ProbX ℚ) (kind : Kind) (a b c : ℚ) (sched : List (Fin 3)) : Option (Except Err (PyVal ℚ)) :=
  parallelIntegral arrPickle (some dirW) .hurdle ratInfo hurdleQ x kind [a, b, c] (fun _ => none) (fun _ _ => 0) sched id

def numRes (x : Option (Except Err (PyVal ℚ))) : Option (List Nat × List (Fl ℚ)) :=
  match x with
  | some (.ok (.num a)) => some (a.shape, a.data)
  | _ => none

def errRes (x : Option (Except Err (PyVal ℚ))) : Option Err :=
  match x with
  | some (.error e) => some e
  | _ => none

/-- worker 1 looks for the file that worker 0 has just opened -/
def tooEarly : List (Fin 3) := [0, 0, 1] ++ List.replicate 10 0 ++ List.replicate 10 1 ++ List.replicate 10 2

/-- workers 0 and 1 write the same file at the same time and worker 2 reads it -/
def mixed : List (Fin 3) := [0, 1, 0, 0, 0, 0, 1, 1, 1, 0, 0, 2, 2] ++ List.replicate 10 0 ++ List.replicate 10 1

/-- **C111** is false: with constant observations all points of the default grid are equal, and all workers use the same
file.  One process gives the mean 0 everywhere; with three workers an `EOFError` is possible, and so is the mean −4/3. -/
theorem C111_false : hurdleQ.grid flatX = .ok [2, 2, 2] ∧
    numRes (some (memo (slotBody .hurdle ratInfo hurdleQ flatX .none .none (methodOf .mean)) world0)) =
      some ([2], [some 0, some 0]) ∧
    errRes (par3 flatX .mean 2 2 2 tooEarly) = some .eof ∧
    numRes (par3 flatX .mean 2 2 2 mixed) = some ([2], [some 0, some (-4 / 3)]) ∧
    ¬ C111_statement ratInfo hurdleQ (arrPickle (K := ℚ)) := by
  have h1 : hurdleQ.grid flatX = .ok [2, 2, 2] := by
    have : (hurdleQ.grid flatX).toOption = some [2, 2, 2] := by decide +kernel
    cases hq : hurdleQ.grid flatX with
    | error e => rw [hq] at this; cases this
    | ok l => rw [hq] at this; rw [Option.some.inj this]
  have h2 : numRes (some (memo (slotBody .hurdle ratInfo hurdleQ flatX .none .none (methodOf .mean)) world0)) =
      some ([2], [some 0, some 0]) := by decide +kernel
  have h3 : errRes (par3 flatX .mean 2 2 2 tooEarly) = some .eof := by decide +kernel
  refine ⟨h1, h2, h3, by decide +kernel, fun h => ?_⟩
  cases hm : memo (slotBody .hurdle ratInfo hurdleQ flatX .none .none (methodOf .mean)) world0 with
  | error e => rw [hm] at h2; cases h2
  | ok v =>
    cases hp : par3 flatX .mean 2 2 2 tooEarly with
    | none => rw [hp] at h3; cases h3
    | some res =>
      have := (h flatX .mean [2, 2, 2] (some dirW) (fun _ => none) (fun _ _ => 0) tooEarly id world0 res h1
        (fun _ _ _ _ _ _ _ _ _ hc => by cases hc) hp v).2 hm
      rw [hp, this] at h3
      cases h3

/-! ### a case -/

theorem split_slash {l l' r r' : List Char} (h : l ++ '/' :: r = l' ++ '/' :: r') (hl : '/' ∉ l) (hl' : '/' ∉ l') :
    l = l' ∧ r = r' := by
  induction l generalizing l' with
  | nil =>
    cases l' with
    | nil => simpa using h
    | cons a l' =>
      simp only [List.nil_append, List.cons_append, List.cons.injEq] at h
      exact absurd (h.1 ▸ List.mem_cons_self) hl'
  | cons a l ih =>
    cases l' with
    | nil =>
      simp only [List.nil_append, List.cons_append, List.cons.injEq] at h
      exact absurd (h.1 ▸ List.mem_cons_self) hl
    | cons b l' =>
      simp only [List.cons_append, List.cons.injEq] at h
      obtain ⟨rfl, h⟩ := h
      obtain ⟨rfl, rfl⟩ := ih h (fun hm => hl (List.mem_cons_of_mem _ hm)) fun hm => hl' (List.mem_cons_of_mem _ hm)
      exact ⟨rfl, rfl⟩

theorem slash_notin (i : ℤ) : '/' ∉ intStr i := by
  intro h
  rcases Lemmas.intStr_chars i _ h with h | ⟨d, hd, h⟩
  · cases h
  · interval_cases d <;> revert h <;> decide

theorem natStr_inj' {a b : ℕ} (h : natStr a = natStr b) : a = b := by
  have h1 : ∀ n : ℕ, intStr (n : ℤ) = natStr n := fun n => by
    unfold intStr
    rw [if_neg (by omega)]
    simp
  have := Lemmas.intStr_inj (a := (a : ℤ)) (b := b) (by rw [h1, h1, h])
  exact_mod_cast this

/-- fractions can be told apart in file names -/
theorem textOK_rat : TextOK ratInfo := by
  have hch : ∀ q : ℚ, ∀ c ∈ ratInfo.text q, c ≠ 'v' ∧ c ≠ 'w' ∧ c ≠ ' ' := by
    intro q c hc
    rcases List.mem_append.1 hc with hc | hc
    · exact intStr_ok _ c hc
    · rcases List.mem_cons.1 hc with rfl | hc
      · decide
      · exact natStr_ok _ c hc
  have hs : ∀ q : ℚ, noSpaces (ratInfo.text q) = ratInfo.text q := fun q =>
    noSpaces_self fun h => (hch q _ h).2.2 rfl
  have hn : noSpaces "None".toList = "None".toList := by decide
  have hsl : ∀ q : ℚ, '/' ∈ ratInfo.text q := fun q => List.mem_append_right _ List.mem_cons_self
  have hN : '/' ∉ "None".toList := by decide
  refine ⟨⟨fun a h => (hch a _ h).1 rfl, fun a h => (hch a _ h).2.1 rfl⟩, ?_⟩
  intro a b h
  cases a with
  | none =>
    cases b with
    | none => rfl
    | some b =>
      simp only [argText, hs, hn] at h
      exact absurd (h ▸ hsl b) hN
  | some a =>
    cases b with
    | none =>
      simp only [argText, hs, hn] at h
      exact absurd (h ▸ hsl a) hN
    | some b =>
      simp only [argText, hs] at h
      obtain ⟨h1, h2⟩ := split_slash h (slash_notin _) (slash_notin _)
      exact congrArg some (Rat.ext (Lemmas.intStr_inj h1) (natStr_inj' h2))

/-- three workers in turns -/
def inTurns : List (Fin 3) := (List.replicate 20 [0, 1, 2]).flatten

/-- The hypotheses can be met, and the theorem then says what is computed here: three workers in turns, an empty working
directory, the grid `0, 2, 4`. -/
example : TextOK ratInfo ∧ PickleOK (arrPickle (K := ℚ)) ∧ (hurdleQ.grid hurdleX).toOption = some [0, 2, 4] ∧
    ([0, 2, 4] : List ℚ).Nodup ∧
    EarlierFiles arrPickle (some dirW) ratInfo hurdleQ hurdleX [0, 2, 4] (fun _ => none) ∧
    numRes (par3 hurdleX .mean 0 2 4 inTurns) = some ([2], [some (8 / 15), some (16 / 15)]) ∧
    numRes (some (memo (slotBody .hurdle ratInfo hurdleQ hurdleX .none .none (methodOf .mean)) world0)) =
      some ([2], [some (8 / 15), some (16 / 15)]) ∧
    numRes (par3 hurdleX .crps 0 2 4 inTurns) =
      numRes (some (memo (slotBody .hurdle ratInfo hurdleQ hurdleX .none .none (methodOf .crps)) world0)) :=
  ⟨textOK_rat, arrPickle_ok, by decide +kernel, (by decide), (fun _ _ _ _ _ _ _ _ _ hc => by cases hc), by decide +kernel,
    by decide +kernel, by decide +kernel⟩

/-- a result of an earlier request in the working directory: the CDF at 2 -/
example : ∃ v n, slotName ratInfo (.cdf none (some 2)) = .ok (some n) ∧
    EarlierFiles arrPickle (some dirW) ratInfo hurdleQ hurdleX [0, 2, 4]
      (fun q => if q = filePath dirW n then some (encArr v) else none) := by
  obtain ⟨v, hv⟩ : ∃ v, memo (slotBody .hurdle ratInfo hurdleQ hurdleX .none .none (.cdf none (some 2))) world0 = .ok v :=
    ⟨_, rfl⟩
  obtain ⟨n, hn⟩ : ∃ n, slotName ratInfo (.cdf none (some 2)) = .ok (some n) := ⟨_, rfl⟩
  refine ⟨v, n, hn, fun d a s m c hd ha hs hsn hc => ?_⟩
  cases hd
  dsimp only at hc
  split at hc
  · rename_i hq
    obtain ⟨-, rfl⟩ := filePath_inj hq
    cases hc
    obtain rfl := slotName_inj textOK_rat hn hsn
    exact ⟨v, world0, arrPickle_ok.whole v, hv⟩
  · cases hc

/-- the grid of the case is one of distinct points because the range is given; the constant observations alone would give
another one -/
example : (∃ lo hi : ℚ, (hurdleX (K := ℚ)).range = some [lo, hi] ∧ lo ≠ hi) ∧
    ¬ ∃ u ∈ flatX.o.data, ∃ v ∈ flatX.o.data, u ≠ v := by
  refine ⟨⟨0, 4, rfl, by norm_num⟩, ?_⟩
  rintro ⟨u, hu, v, hv, h⟩
  revert hu hv
  simp only [flatX, List.mem_cons, List.not_mem_nil, or_false, or_self]
  rintro rfl rfl
  exact h rfl

end Props
