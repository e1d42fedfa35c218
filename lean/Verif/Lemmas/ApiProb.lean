import Verif.Lemmas.EndToEnd
import Verif.Lemmas.Dist
import Verif.Spec.EndToEndProb

/-! The probabilistic verifiers share the methods of VerifyProb. -/

set_option linter.unusedSectionVars false

namespace Model
open Np NDArr Spec

variable {K : Type} [Field K] [LinearOrder K] [IsStrictOrderedRing K] [FloorSemiring K] {A : Type}

/-- `P` is a class derived from VerifyProb with distribution function `cdf` -/
structure SharedProb (c : Cfg K) (F : ProbFns K) (emb : A → Arg K) (cdf : ProbX K → Thr K → Except Err (NDArr (Fl K)))
    (P : Prims (ProbX K) (PyVal K) A) : Prop where
  base : Shared c ProbX.o emb P
  cdfBelow : P.cdfBelow = (probPrims c F emb cdf).cdfBelow
  rankOf : P.rankOf = (probPrims c F emb cdf).rankOf
  spreadOf : P.spreadOf = (probPrims c F emb cdf).spreadOf
  members : P.members = (probPrims c F emb cdf).members
  pitRanks : P.pitRanks = (probPrims c F emb cdf).pitRanks
  pitRandom : P.pitRandom = (probPrims c F emb cdf).pitRandom
  pitDraw : P.pitDraw = (probPrims c F emb cdf).pitDraw
  init : ∀ x, P.init x = .ok x
  check : ∀ x, (P.check x).2 = x

theorem shared_gauss (c : Cfg K) (F : ProbFns K) (emb : A → Arg K) :
    SharedProb c F emb (gaussCdf c F) (gaussPrims c F emb) := by
  refine ⟨?_, rfl, rfl, rfl, rfl, rfl, rfl, rfl, fun _ => rfl, fun _ => rfl⟩
  constructor <;> rfl

theorem shared_gamma (c : Cfg K) (F : ProbFns K) (emb : A → Arg K) :
    SharedProb c F emb (gammaCdfOf c F) (gammaPrims c F emb) := by
  refine ⟨?_, rfl, rfl, rfl, rfl, rfl, rfl, rfl, fun _ => rfl, fun _ => rfl⟩
  constructor <;> rfl

theorem shared_hurdle (c : Cfg K) (F : ProbFns K) (emb : A → Arg K) (ofNum : K → A) :
    SharedProb c F emb (hurdleCdfOf c F) (hurdlePrims c F emb ofNum) := by
  refine ⟨?_, rfl, rfl, rfl, rfl, rfl, rfl, rfl, fun _ => rfl, fun _ => rfl⟩
  constructor <;> rfl

theorem key_ok {x : ProbX K} {k : String} {a : NDArr (Fl K)} (h : HasPar x k a) : x.key k = .ok a := by
  simp only [ProbX.key, h.1]

theorem lookup_mem {α : Type} {l : List (String × α)} {k : String} {a : α} (h : l.lookup k = some a) : (k, a) ∈ l := by
  induction l with
  | nil => cases h
  | cons p l ih =>
    obtain ⟨k', b⟩ := p
    rw [List.lookup_cons] at h
    by_cases e : k = k'
    · subst e
      rw [beq_self_eq_true] at h
      simp only [Option.some.injEq] at h
      subst h
      exact List.mem_cons_self ..
    · rw [beq_false_of_ne e] at h
      exact List.mem_cons_of_mem _ (ih h)

theorem dictOK_par {x : ProbX K} {keys : List String} (h : dictOK x keys = true) {k : String} (hk : k ∈ keys) :
    ∃ a, HasPar x k a := by
  simp only [dictOK, Bool.and_eq_true, List.all_eq_true, decide_eq_true_eq] at h
  have := h.2 k hk
  rw [ProbX.hasKey, Option.isSome_iff_exists] at this
  obtain ⟨a, ha⟩ := this
  exact ⟨a, ha, h.1 _ (lookup_mem ha)⟩

/-! ### distribution functions -/

theorem clip01_unit {x : Fl K} (h : ∀ v, x = some v → 0 ≤ v ∧ v ≤ 1) : clip01 x = x := by
  cases x with
  | none => rfl
  | some v => exact clip01_id (h v rfl).1 (h v rfl).2

theorem gaussCdf_ok {c : Cfg K} {F : ProbFns K} {x : ProbX K} {mu sigma : NDArr (Fl K)} (hmu : HasPar x "mu" mu)
    (hsd : HasPar x "sigma" sigma) (hS : UnitLib F.scipy) {t : Thr K} (ht : ThrOK t x.o.shape)
    (hpool : PoolOK c.workers c.mapAxis x.o.shape) :
    ∃ p, gaussCdf c F x t = .ok p ∧ p.shape = x.o.shape ∧
      ∀ k, InB x.o.shape k → p.get k = gaussProb F.scipy x.trunc (mu.get k) (sigma.get k) (thrAt t k) := by
  have hs : ∀ q ∈ [mu, sigma], q.shape = x.o.shape := by
    intro q hq
    simp only [List.mem_cons, List.not_mem_nil, or_false] at hq
    rcases hq with rfl | rfl
    · exact hmu.2
    · exact hsd.2
  simp only [gaussCdf, key_ok hmu, key_ok hsd, bind, Except.bind, cdfGaussian]
  obtain ⟨r, r1, r2, r3⟩ := cdfGeneric_ok (workers := c.workers) (mapAxis := c.mapAxis)
    (fun p : List (Fl K) => if x.trunc = true then
      F.scipy.truncnorm (p.getD 2 none) (Fl.div (Fl.mul (some (-1)) (p.getD 0 none)) (p.getD 1 none)) (p.getD 0 none)
        (p.getD 1 none) else F.scipy.norm (p.getD 2 none) (p.getD 0 none) (p.getD 1 none))
    (fun p : List (Fl K) => if x.trunc = true then
      F.scipy.truncnorm (p.getD 2 none) (Fl.div (Fl.mul (some (-1)) (p.getD 0 none)) (p.getD 1 none)) (p.getD 0 none)
        (p.getD 1 none) else F.scipy.norm (p.getD 2 none) (p.getD 0 none) (p.getD 1 none)) hmu.2 hs ht hpool
  refine ⟨r, r1, r2, fun k hk => ?_⟩
  rw [r3 k hk, ite_self]
  simp only [List.map_cons, List.map_nil, List.cons_append, List.nil_append, List.getD_cons_zero, List.getD_cons_succ]
  have e : (if x.trunc = true then F.scipy.truncnorm (thrAt t k) (Fl.div (Fl.mul (some (-1)) (mu.get k)) (sigma.get k))
        (mu.get k) (sigma.get k) else F.scipy.norm (thrAt t k) (mu.get k) (sigma.get k)) =
      gaussProb F.scipy x.trunc (mu.get k) (sigma.get k) (thrAt t k) := by
    unfold gaussProb
    by_cases htr : x.trunc = true
    · rw [if_pos htr, if_pos htr]
      congr 1
      cases mu.get k <;> cases sigma.get k <;> simp [Fl.mul, Fl.lift2, Fl.div, ratio]
    · rw [if_neg htr, if_neg htr]
  rw [e]
  apply clip01_unit
  intro v hv
  unfold gaussProb at hv
  split at hv
  · exact hS.truncnorm _ _ _ _ _ hv
  · exact hS.norm _ _ _ _ hv

theorem gammaPars_eq (m s : Fl K) : gammaPars m s = (gammaShape m s, gammaScale m s) := by
  cases m <;> cases s <;> simp [gammaPars, gammaShape, gammaScale, Fl.div, Fl.sq, ratio]
  rename_i a b
  constructor
  · by_cases h : b = 0 <;> simp [h, pow_two]
  · by_cases h : a = 0 <;> simp [h, pow_two]

theorem gammaCdfOf_ok {c : Cfg K} {F : ProbFns K} {x : ProbX K} {umu sigma shift : NDArr (Fl K)}
    (hmu : HasPar x "unshifted_mu" umu) (hsd : HasPar x "sigma" sigma) (hsh : HasPar x "shift" shift)
    (htr : x.trunc = false) (hS : UnitLib F.scipy) {t : Thr K} (ht : ThrOK t x.o.shape)
    (hpool : PoolOK c.workers c.mapAxis x.o.shape) :
    ∃ p, gammaCdfOf c F x t = .ok p ∧ p.shape = x.o.shape ∧
      ∀ k, InB x.o.shape k → p.get k = gammaProb F.scipy (umu.get k) (sigma.get k) (shift.get k) (thrAt t k) := by
  have hz : umu.shape = sigma.shape := hmu.2.trans hsd.2.symm
  simp only [gammaCdfOf, key_ok hmu, key_ok hsd, key_ok hsh, bind, Except.bind, cdfGamma]
  rw [zipWith_ok _ _ _ hz, zipWith_ok _ _ _ hz]
  simp only [htr, Bool.false_eq_true, if_false]
  have hs : ∀ q ∈ [ofFn umu.shape fun i => gammaShape (umu.get i) (sigma.get i),
      ofFn umu.shape fun i => gammaScale (umu.get i) (sigma.get i), shift], q.shape = x.o.shape := by
    intro q hq
    simp only [List.mem_cons, List.not_mem_nil, or_false] at hq
    rcases hq with rfl | rfl | rfl
    · exact hmu.2
    · exact hmu.2
    · exact hsh.2
  obtain ⟨r, r1, r2, r3⟩ := cdfGeneric_ok (workers := c.workers) (mapAxis := c.mapAxis)
    (fun p : List (Fl K) => F.scipy.gamma (p.getD 3 none) (p.getD 0 none) (p.getD 2 none) (p.getD 1 none))
    (fun p : List (Fl K) => F.scipy.gamma (p.getD 3 none) (p.getD 0 none) (p.getD 2 none) (p.getD 1 none))
    hmu.2 hs ht hpool
  refine ⟨r, r1, r2, fun k hk => ?_⟩
  have hku : InB umu.shape k := by rw [hmu.2]; exact hk
  rw [r3 k hk, ite_self]
  simp only [List.map_cons, List.map_nil, List.cons_append, List.nil_append, List.getD_cons_zero, List.getD_cons_succ]
  rw [get_ofFn _ hku, get_ofFn _ hku, gammaProb, gammaPars_eq]
  exact clip01_unit fun v hv => hS.gamma _ _ _ _ _ hv

theorem hurdleCdfOf_ok {c : Cfg K} {F : ProbFns K} {x : ProbX K} {pop mu sigma : NDArr (Fl K)}
    (hpop : HasPar x "pop" pop) (hmu : HasPar x "mu" mu) (hsd : HasPar x "sigma" sigma)
    (hp : ∀ k v, InB x.o.shape k → pop.get k = some v → 0 ≤ v ∧ v ≤ 1) (hS : UnitLib F.scipy) {t : Thr K}
    (ht : ThrOK t x.o.shape) (hpool : PoolOK c.workers c.mapAxis x.o.shape) :
    ∃ p, hurdleCdfOf c F x t = .ok p ∧ p.shape = x.o.shape ∧
      ∀ k, InB x.o.shape k → p.get k = hurdleProb F.scipy (pop.get k) (mu.get k) (sigma.get k) (thrAt t k) := by
  have hz : mu.shape = sigma.shape := hmu.2.trans hsd.2.symm
  simp only [hurdleCdfOf, key_ok hmu, key_ok hsd, key_ok hpop, bind, Except.bind, cdfGammaHurdle]
  rw [zipWith_ok _ _ _ hz, zipWith_ok _ _ _ hz]
  have hs : ∀ q ∈ [pop, ofFn mu.shape fun i => gammaShape (mu.get i) (sigma.get i),
      ofFn mu.shape fun i => gammaScale (mu.get i) (sigma.get i)], q.shape = x.o.shape := by
    intro q hq
    simp only [List.mem_cons, List.not_mem_nil, or_false] at hq
    rcases hq with rfl | rfl | rfl
    · exact hpop.2
    · exact hmu.2
    · exact hmu.2
  obtain ⟨r, r1, r2, r3⟩ := cdfGeneric_ok (workers := c.workers) (mapAxis := c.mapAxis) (hurdleElem F.scipy)
    (hurdleElem F.scipy) hmu.2 hs ht hpool
  refine ⟨r, r1, r2, fun k hk => ?_⟩
  have hku : InB mu.shape k := by rw [hmu.2]; exact hk
  rw [r3 k hk, ite_self]
  simp only [List.map_cons, List.map_nil, List.cons_append, List.nil_append]
  rw [get_ofFn _ hku, get_ofFn _ hku]
  have e : hurdleElem F.scipy [pop.get k, gammaShape (mu.get k) (sigma.get k), gammaScale (mu.get k) (sigma.get k),
      thrAt t k] = hurdleProb F.scipy (pop.get k) (mu.get k) (sigma.get k) (thrAt t k) := by
    unfold hurdleElem hurdleProb gammaProb
    simp only [List.getD_cons_zero, List.getD_cons_succ, gammaPars_eq]
    have hl : Fl.lt (some 0) (thrAt t k) = true ↔ LtP (some 0) (thrAt t k) := by
      cases thrAt t k <;> simp [Fl.lt, LtP]
    by_cases h : LtP (some 0) (thrAt t k)
    · rw [if_pos (hl.2 h), if_pos h]
      cases pop.get k <;>
        cases F.scipy.gamma (thrAt t k) (gammaShape (mu.get k) (sigma.get k)) (some 0) (gammaScale (mu.get k) (sigma.get k)) <;>
        simp [Fl.add, Fl.mul, Fl.sub, Fl.lift2]
    · rw [if_neg (fun h' => h (hl.1 h')), if_neg h]
      cases pop.get k <;> simp [Fl.sub, Fl.lift2]
  rw [e]
  apply clip01_unit
  intro v hv
  unfold hurdleProb at hv
  split at hv
  · cases hpk : pop.get k with
    | none => rw [hpk] at hv; cases hv
    | some q =>
      cases hg : gammaProb F.scipy (mu.get k) (sigma.get k) (some 0) (thrAt t k) with
      | none => rw [hpk, hg] at hv; cases hv
      | some g =>
        rw [hpk, hg] at hv
        simp only [Option.some.injEq] at hv
        have h1 := hp k q hk hpk
        have h2 := hS.gamma _ _ _ _ _ hg
        subst hv
        constructor
        · nlinarith [mul_nonneg h1.1 h2.1]
        · nlinarith [mul_le_of_le_one_right h1.1 h2.2]
  · cases hpk : pop.get k with
    | none => rw [hpk] at hv; cases hv
    | some q =>
      rw [hpk] at hv
      simp only [Option.map_some, Option.some.injEq] at hv
      have h1 := hp k q hk hpk
      subst hv
      constructor <;> linarith [h1.1, h1.2]

end Model
