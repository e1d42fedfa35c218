import Verif.Lemmas.Ensemble
import Verif.Props.Average

/-!
# Ensemble probabilities and Brier scores: C09, C10, C11, C12, C55, C62 (Brier)
-/

set_option linter.unusedSectionVars false

namespace Props
open Np NDArr Spec Model Lemmas

variable {K : Type} [Field K] [LinearOrder K]

theorem le_iff_LeP (x y : Fl K) : Fl.le x y = true ↔ LeP x y := by
  cases x <;> cases y <;> simp [Fl.le, LeP]

theorem momentsCol_eq [CharZero K] (t : Fl K) (M : List (Fl K)) :
    momentsCol (t :: M) = fractionLe M t := by
  unfold momentsCol fractionLe
  simp only [List.tail_cons, List.getD_cons_zero, List.length_cons, Nat.add_sub_cancel]
  by_cases h : M = []
  · subst h; simp [Fl.div]
  · have hl : (M.length : K) ≠ 0 := by
      have : M.length ≠ 0 := by simpa using h
      exact_mod_cast this
    rw [if_neg h]
    simp only [Fl.div, if_neg hl]
    congr 3
    rw [List.countP_eq_length_filter]
    congr 1
    apply List.filter_congr
    intro x _
    rw [Bool.eq_iff_iff, le_iff_LeP]
    simp

/-- `_cdf(below=t)` (any method): the conversion function at every position. -/
theorem ensCdf_below (workers : Nat) (method : Method) (kde : List (Fl K) → Fl K)
    (f : NDArr (Fl K)) {ax : Int} (t : Thr K) (hax : AxisOK f.shape.length ax)
    (ht : ThrOK t (posShape f.shape ax)) (hm : method ≠ .unknown)
    (hne : (posShape f.shape ax).prod ≠ 0) :
    ∃ r r', ensCdf workers method kde f ax none (some t) = .ok r ∧
      ensCdf workers method kde f ax (some t) none = .ok r' ∧
      r.shape = posShape f.shape ax ∧ r'.shape = posShape f.shape ax ∧
      ∀ k, InB (posShape f.shape ax) k →
        r.get k = convOf method kde (thrAt t k :: membersAt f ax k) ∧
        r'.get k = Fl.sub (some 1) (r.get k) := by
  obtain ⟨r, h1, h2, h3⟩ := ensToProbBelow_spec workers method kde f t hax ht hm hne
  refine ⟨r, r.map fun x => Fl.sub (some 1) x, ?_, ?_, h2, h2, ?_⟩
  · simp only [ensCdf, ensToProb]; exact h1
  · simp only [ensCdf, ensToProb, h1]; rfl
  · intro k hk
    exact ⟨h3 k hk, get_map _ _ (by rw [h2]; exact hk)⟩

variable [IsStrictOrderedRing K]

/-- **C09**: with the `moments` method, `cdf(below=t)` is at every position the fraction of members at
or below the threshold, and `cdf(over=t)` its complement, for every number of workers. -/
theorem C09_fraction (workers : Nat) (kde : List (Fl K) → Fl K) (f : NDArr (Fl K)) {ax : Int}
    (t : Thr K) (hax : AxisOK f.shape.length ax) (ht : ThrOK t (posShape f.shape ax))
    (hne : (posShape f.shape ax).prod ≠ 0) :
    ∃ r r', ensCdf workers .moments kde f ax none (some t) = .ok r ∧
      ensCdf workers .moments kde f ax (some t) none = .ok r' ∧
      r.shape = posShape f.shape ax ∧ r'.shape = posShape f.shape ax ∧
      ∀ k, InB (posShape f.shape ax) k →
        r.get k = fractionLe (membersAt f ax k) (thrAt t k) ∧
        r'.get k = Fl.sub (some 1) (fractionLe (membersAt f ax k) (thrAt t k)) := by
  obtain ⟨r, r', h1, h2, h3, h4, h5⟩ :=
    ensCdf_below workers .moments kde f t hax ht (by decide) hne
  refine ⟨r, r', h1, h2, h3, h4, ?_⟩
  intro k hk
  obtain ⟨e1, e2⟩ := h5 k hk
  have : r.get k = fractionLe (membersAt f ax k) (thrAt t k) := by
    rw [e1]; exact momentsCol_eq _ _
  exact ⟨this, by rw [e2, this]⟩

/-- The same of the function `ens_to_prob` when it is called directly, with `over` or with `below`; giving both or
neither is an `AssertionError`. -/
theorem C09_function (workers : Nat) (kde : List (Fl K) → Fl K) (f : NDArr (Fl K)) {ax : Int}
    (t : Thr K) (hax : AxisOK f.shape.length ax) (ht : ThrOK t (posShape f.shape ax))
    (hne : (posShape f.shape ax).prod ≠ 0) :
    (∃ r r', ensToProb workers .moments kde f ax none (some t) = .ok r ∧
      ensToProb workers .moments kde f ax (some t) none = .ok r' ∧
      r.shape = posShape f.shape ax ∧ r'.shape = posShape f.shape ax ∧
      ∀ k, InB (posShape f.shape ax) k →
        r.get k = fractionLe (membersAt f ax k) (thrAt t k) ∧
        r'.get k = Fl.sub (some 1) (fractionLe (membersAt f ax k) (thrAt t k))) ∧
    (∀ t', ensToProb workers .moments kde f ax (some t) (some t') = .error .assertion) ∧
    ensToProb workers .moments kde f ax none none = .error .assertion := by
  refine ⟨?_, fun _ => rfl, rfl⟩
  obtain ⟨r, h1, h2, h3⟩ := ensToProbBelow_spec workers .moments kde f t hax ht (by decide) hne
  refine ⟨r, r.map fun x => Fl.sub (some 1) x, h1, ?_, h2, h2, ?_⟩
  · simp only [ensToProb, h1]; rfl
  · intro k hk
    have : r.get k = fractionLe (membersAt f ax k) (thrAt t k) := by
      rw [h3 k hk]; exact momentsCol_eq _ _
    exact ⟨this, by rw [get_map _ _ (by rw [h2]; exact hk), this]⟩

theorem fractionLe_range {M : List (Fl K)} (hM : M ≠ []) (t : Fl K) :
    ∃ v, fractionLe M t = some v ∧ 0 ≤ v ∧ v ≤ 1 := by
  refine ⟨_, by unfold fractionLe; rw [if_neg hM], by positivity, ?_⟩
  have : (0 : K) < M.length := by exact_mod_cast List.length_pos_of_ne_nil hM
  rw [div_le_one this]
  exact_mod_cast List.length_filter_le _ _

theorem fractionLe_mono {M : List (Fl K)} (hM : M ≠ []) {a b : K} (hab : a ≤ b) :
    ∃ v w, fractionLe M (some a) = some v ∧ fractionLe M (some b) = some w ∧ v ≤ w := by
  refine ⟨_, _, by unfold fractionLe; rw [if_neg hM], by unfold fractionLe; rw [if_neg hM], ?_⟩
  have : (0 : K) < M.length := by exact_mod_cast List.length_pos_of_ne_nil hM
  apply div_le_div_of_nonneg_right _ this.le
  rw [← List.countP_eq_length_filter, ← List.countP_eq_length_filter]
  have : ∀ x : Fl K, LeP x (some a) → LeP x (some b) := by
    rintro x ⟨u, v, rfl, h, huv⟩
    cases h
    exact ⟨u, b, rfl, rfl, huv.trans hab⟩
  exact_mod_cast List.countP_mono_left fun x _ hx => by simpa using this x (by simpa using hx)

theorem membersAt_ne_nil (f : NDArr (Fl K)) {ax : Int} (hax : AxisOK f.shape.length ax)
    (hm : f.shape.getD (axisNum f.shape.length ax) 0 ≠ 0) {k : List Nat}
    (hk : InB (posShape f.shape ax) k) : membersAt f ax k ≠ [] := by
  have hlt := axisNum_lt hax
  unfold membersAt
  rw [fiber_single f hlt (by rw [dropAxes_single hlt]; exact hk)]
  simpa using hm

theorem membersAt_length (f : NDArr (Fl K)) {ax : Int} (hax : AxisOK f.shape.length ax)
    {k : List Nat} (hk : InB (posShape f.shape ax) k) :
    (membersAt f ax k).length = f.shape.getD (axisNum f.shape.length ax) 0 := by
  have hlt := axisNum_lt hax
  unfold membersAt
  rw [fiber_single f hlt (by rw [dropAxes_single hlt]; exact hk)]
  simp

/-- **C09**: probabilities are in `[0,1]` (with at least one member), and a larger threshold never
lowers `cdf(below=...)` nor raises `cdf(over=...)`. -/
theorem C09_range_monotone (workers : Nat) (kde : List (Fl K) → Fl K) (f : NDArr (Fl K)) {ax : Int}
    (t t' : Thr K) (hax : AxisOK f.shape.length ax) (ht : ThrOK t (posShape f.shape ax))
    (ht' : ThrOK t' (posShape f.shape ax)) (hne : (posShape f.shape ax).prod ≠ 0)
    (hmem : f.shape.getD (axisNum f.shape.length ax) 0 ≠ 0) :
    ∃ r r' q q', ensCdf workers .moments kde f ax none (some t) = .ok r ∧
      ensCdf workers .moments kde f ax (some t) none = .ok r' ∧
      ensCdf workers .moments kde f ax none (some t') = .ok q ∧
      ensCdf workers .moments kde f ax (some t') none = .ok q' ∧
      ∀ k, InB (posShape f.shape ax) k →
        (∃ v, r.get k = some v ∧ r'.get k = some (1 - v) ∧ 0 ≤ v ∧ v ≤ 1) ∧
        (LeP (thrAt t k) (thrAt t' k) → LeP (r.get k) (q.get k) ∧ LeP (q'.get k) (r'.get k)) := by
  obtain ⟨r, r', h1, h2, -, -, h5⟩ := C09_fraction workers kde f t hax ht hne
  obtain ⟨q, q', g1, g2, -, -, g5⟩ := C09_fraction workers kde f t' hax ht' hne
  refine ⟨r, r', q, q', h1, h2, g1, g2, ?_⟩
  intro k hk
  have hM := membersAt_ne_nil f hax hmem hk
  refine ⟨?_, ?_⟩
  · obtain ⟨v, hv, hv0, hv1⟩ := fractionLe_range hM (thrAt t k)
    exact ⟨v, by rw [(h5 k hk).1, hv], by rw [(h5 k hk).2, hv]; rfl, hv0, hv1⟩
  · rintro ⟨a, b, ha, hb, hab⟩
    obtain ⟨v, w, hv, hw, hvw⟩ := fractionLe_mono hM hab
    rw [(h5 k hk).1, (h5 k hk).2, (g5 k hk).1, (g5 k hk).2, ha, hb, hv, hw]
    exact ⟨⟨v, w, rfl, rfl, hvw⟩, ⟨1 - w, 1 - v, rfl, rfl, by linarith⟩⟩

/-! ### C10 -/

theorem mergeThreshold_ok {f : NDArr (Fl K)} {ax : Int} {t : Thr K} {c : NDArr (Fl K)}
    (h : mergeThreshold f ax t = .ok c) :
    AxisOK f.shape.length ax ∧ ThrOK t (posShape f.shape ax) := by
  by_cases hax : AxisOK f.shape.length ax
  · refine ⟨hax, ?_⟩
    unfold mergeThreshold at h
    rw [show f.ndim = f.shape.length from rfl, normAxis_ok hax] at h
    cases t with
    | scalar v => trivial
    | array a =>
      simp only [bind, Except.bind] at h
      by_cases ha : a.shape = f.shape.eraseIdx (axisNum f.shape.length ax)
      · exact ha
      · rw [if_neg ha] at h; cases h
    | other => cases h
  · unfold mergeThreshold normAxis at h
    rw [if_neg (by exact hax)] at h
    cases h

/-- **C10**: `ens_to_prob` (and hence `cdf`) gives the same result — the same array or the same
error — for any two worker counts, for both conversion methods and every per-column conversion, every
threshold argument and axis, as long as there is at least one position. -/
theorem C10_workers (w w' : Nat) (method : Method) (kde : List (Fl K) → Fl K)
    (f : NDArr (Fl K)) (ax : Int) (over below : Option (Thr K))
    (hne : (posShape f.shape ax).prod ≠ 0) :
    ensToProb w method kde f ax over below = ensToProb w' method kde f ax over below ∧
    ensCdf w method kde f ax over below = ensCdf w' method kde f ax over below := by
  have key : ∀ t, ensToProbBelow w method kde f ax t = ensToProbBelow w' method kde f ax t := by
    intro t
    cases hm : mergeThreshold f ax t with
    | error e => unfold ensToProbBelow; rw [hm]; rfl
    | ok c =>
      obtain ⟨hax, ht⟩ := mergeThreshold_ok hm
      by_cases hme : method = .unknown
      · subst hme
        unfold ensToProbBelow
        rw [hm]; rfl
      · obtain ⟨r, h1, h2, h3⟩ := ensToProbBelow_spec w method kde f t hax ht hme hne
        obtain ⟨r', g1, g2, g3⟩ := ensToProbBelow_spec w' method kde f t hax ht hme hne
        rw [h1, g1]
        congr 1
        apply ext_get (h2.trans g2.symm)
        intro k hk
        rw [h3 k (h2 ▸ hk), g3 k (h2 ▸ hk)]
  have key2 : ∀ o b, ensToProb w method kde f ax o b = ensToProb w' method kde f ax o b := by
    intro o b
    cases o <;> cases b <;> simp only [ensToProb, key]
  refine ⟨key2 _ _, ?_⟩
  cases over <;> cases below <;> simp only [ensCdf, key2]

/-- the excluded case is real: an ensemble with no position at all is accepted by one worker and
rejected by several -/
theorem C10_empty : okAnd (ensToProb (K := ℚ) 1 .moments (fun _ => none) ⟨[0, 2], [], rfl⟩ (-1) none
      (some (.scalar (some 1)))) (fun r => r.shape = [0]) = true ∧
    ensToProb (K := ℚ) 2 .moments (fun _ => none) ⟨[0, 2], [], rfl⟩ (-1) none
      (some (.scalar (some 1))) = .error .generic := by
  constructor
  · decide +kernel
  · rfl

/-! ### C11, C12: Brier scores -/

theorem lt_iff_LtP (x y : Fl K) : Fl.lt x y = true ↔ LtP x y := by
  cases x <;> cases y <;> simp [Fl.lt, LtP]

theorem zipWith_spec {α β γ : Type} [Inhabited α] [Inhabited β] [Inhabited γ] (g : α → β → γ)
    (a : NDArr α) (b : NDArr β) (h : a.shape = b.shape) :
    ∃ c, zipWith g a b = .ok c ∧ c.shape = a.shape ∧
      ∀ k, InB a.shape k → c.get k = g (a.get k) (b.get k) :=
  ⟨_, zipWith_ok g a b h, rfl, fun _ hk => get_ofFn _ hk⟩

theorem cmpThr_spec (cmp : Fl K → Fl K → Bool) (o : NDArr (Fl K)) (t : Thr K)
    (ht : ThrOK t o.shape) : ∃ b, cmpThr cmp o t = .ok b ∧ b.shape = o.shape ∧
      ∀ k, InB o.shape k → b.get k = cmp (o.get k) (thrAt t k) := by
  cases t with
  | scalar v => exact ⟨_, rfl, rfl, fun k hk => get_map _ _ hk⟩
  | array a =>
    have ha : a.shape = o.shape := ht
    obtain ⟨b, h1, h2, h3⟩ := zipWith_spec cmp o a ha.symm
    exact ⟨b, h1, h2, fun k hk => h3 k hk⟩
  | other => exact absurd ht (by simp [ThrOK])

theorem indicator_bool {p : Prop} {b : Bool} (h : b = true ↔ p) :
    (if b then (1 : K) else 0) = indicator p := by
  unfold indicator
  by_cases hp : p
  · rw [if_pos hp, if_pos (h.2 hp)]
  · rw [if_neg hp, if_neg (fun hb => hp (h.1 hb))]

/-- What the two Brier calls compute: the squared difference of the probability and the indicator of
the observed event (`o < t` for `below`, `o > t` for `over`). -/
theorem ensBrier_spec (workers : Nat) (method : Method) (kde : List (Fl K) → Fl K)
    (f o : NDArr (Fl K)) {ax : Int} (t : Thr K) (hax : AxisOK f.shape.length ax)
    (ho : o.shape = posShape f.shape ax) (ht : ThrOK t (posShape f.shape ax))
    (hm : method ≠ .unknown) (hne : (posShape f.shape ax).prod ≠ 0) :
    ∃ r r' b b', ensCdf workers method kde f ax none (some t) = .ok r ∧
      ensCdf workers method kde f ax (some t) none = .ok r' ∧
      ensBrier workers method kde f ax o none (some t) = .ok b ∧
      ensBrier workers method kde f ax o (some t) none = .ok b' ∧
      b.shape = o.shape ∧ b'.shape = o.shape ∧
      ∀ k, InB o.shape k →
        r'.get k = Fl.sub (some 1) (r.get k) ∧
        b.get k = (r.get k).map (fun v => (v - indicator (LtP (o.get k) (thrAt t k))) ^ 2) ∧
        b'.get k = (r'.get k).map (fun v => (v - indicator (LtP (thrAt t k) (o.get k))) ^ 2) := by
  obtain ⟨r, r', h1, h2, h3, h4, h5⟩ := ensCdf_below workers method kde f t hax ht hm hne
  rw [← ho] at h3 h4 h5 ht
  obtain ⟨e, e1, e2, e3⟩ := cmpThr_spec Fl.lt o t ht
  obtain ⟨e', e1', e2', e3'⟩ := cmpThr_spec (fun x v => Fl.lt v x) o t ht
  obtain ⟨b, b1, b2, b3⟩ := zipWith_spec (fun p b => Fl.sq (Fl.sub p (some (if b then 1 else 0)))) r e
    (h3.trans e2.symm)
  obtain ⟨b', b1', b2', b3'⟩ := zipWith_spec (fun p b => Fl.sq (Fl.sub p (some (if b then 1 else 0))))
    r' e' (h4.trans e2'.symm)
  refine ⟨r, r', b, b', h1, h2, ?_, ?_, b2.trans h3, b2'.trans h4, ?_⟩
  · unfold ensBrier binarizeObs; rw [h1]; simp only [bind, Except.bind, e1]; exact b1
  · unfold ensBrier binarizeObs; rw [h2]; simp only [bind, Except.bind, e1']; exact b1'
  · intro k hk
    refine ⟨(h5 k hk).2, ?_, ?_⟩
    · rw [b3 k (h3 ▸ hk), e3 k hk, indicator_bool (lt_iff_LtP _ _)]
      cases r.get k <;> simp [Fl.sq, Fl.sub, Fl.lift2, pow_two]
    · rw [b3' k (h4 ▸ hk), e3' k hk, indicator_bool (lt_iff_LtP _ _)]
      cases r'.get k <;> simp [Fl.sq, Fl.sub, Fl.lift2, pow_two]

theorem sq_diff_range {v : K} (h0 : 0 ≤ v) (h1 : v ≤ 1) (p : Prop) :
    0 ≤ (v - indicator p) ^ 2 ∧ (v - indicator p) ^ 2 ≤ 1 ∧
      ((v - indicator p) ^ 2 = 0 ↔ v = indicator p) := by
  refine ⟨sq_nonneg _, ?_, by rw [pow_eq_zero_iff (by norm_num), sub_eq_zero]⟩
  unfold indicator
  split <;> nlinarith

/-- **C11**, range: with any conversion giving probabilities in `[0,1]` (in particular `moments` with at
least one member), both Brier scores of every position are in `[0,1]`, and are zero exactly when the
probability equals the indicator of the observed event. -/
theorem C11_range_partial (workers : Nat) (method : Method) (kde : List (Fl K) → Fl K)
    (hkde : ∀ l, ∃ v, kde l = some v ∧ 0 ≤ v ∧ v ≤ 1)
    (f o : NDArr (Fl K)) {ax : Int} (t : Thr K) (hax : AxisOK f.shape.length ax)
    (ho : o.shape = posShape f.shape ax) (ht : ThrOK t (posShape f.shape ax))
    (hm : method ≠ .unknown) (hne : (posShape f.shape ax).prod ≠ 0)
    (hmem : f.shape.getD (axisNum f.shape.length ax) 0 ≠ 0) :
    ∃ r r' b b', ensCdf workers method kde f ax none (some t) = .ok r ∧
      ensCdf workers method kde f ax (some t) none = .ok r' ∧
      ensBrier workers method kde f ax o none (some t) = .ok b ∧
      ensBrier workers method kde f ax o (some t) none = .ok b' ∧
      ∀ k, InB o.shape k →
        (∃ w, b.get k = some w ∧ 0 ≤ w ∧ w ≤ 1 ∧
          (w = 0 ↔ r.get k = some (indicator (LtP (o.get k) (thrAt t k))))) ∧
        (∃ w, b'.get k = some w ∧ 0 ≤ w ∧ w ≤ 1 ∧
          (w = 0 ↔ r'.get k = some (indicator (LtP (thrAt t k) (o.get k))))) := by
  obtain ⟨r, r', b, b', h1, h2, h3, h4, h5, h6, h7⟩ :=
    ensBrier_spec workers method kde f o t hax ho ht hm hne
  refine ⟨r, r', b, b', h1, h2, h3, h4, ?_⟩
  intro k hk
  obtain ⟨e1, e2, e3⟩ := h7 k hk
  obtain ⟨v, hv, hv0, hv1⟩ : ∃ v, r.get k = some v ∧ 0 ≤ v ∧ v ≤ 1 := by
    obtain ⟨r2, r2', g1, -, -, -, g5⟩ := ensCdf_below workers method kde f t hax ht hm hne
    rw [h1] at g1
    cases g1
    rw [(g5 k (ho ▸ hk)).1]
    cases method with
    | kde => exact hkde _
    | moments =>
      have := fractionLe_range (membersAt_ne_nil f hax hmem (ho ▸ hk)) (thrAt t k)
      rw [← momentsCol_eq] at this
      exact this
    | unknown => exact absurd rfl hm
  have hv' : r'.get k = some (1 - v) := by rw [e1, hv]; rfl
  obtain ⟨a1, a2, a3⟩ := sq_diff_range hv0 hv1 (LtP (o.get k) (thrAt t k))
  obtain ⟨c1, c2, c3⟩ := sq_diff_range (v := 1 - v) (by linarith) (by linarith)
    (LtP (thrAt t k) (o.get k))
  refine ⟨⟨_, by rw [e2, hv]; rfl, a1, a2, ?_⟩, ⟨_, by rw [e3, hv']; rfl, c1, c2, ?_⟩⟩
  · rw [hv, Option.some_inj]; exact a3
  · rw [hv', Option.some_inj]; exact c3

theorem fractionLe_const {M : List (Fl K)} (hM : M ≠ []) {x t : Fl K} (h : ∀ y ∈ M, y = x) :
    fractionLe M t = some (indicator (LeP x t)) := by
  classical
  have hl : (M.length : K) ≠ 0 := by
    have : M.length ≠ 0 := by simpa using hM
    exact_mod_cast this
  unfold fractionLe indicator
  rw [if_neg hM]
  by_cases hx : LeP x t
  · rw [if_pos hx, List.filter_eq_self.2 (fun y hy => by simpa [h y hy] using hx), div_self hl]
  · rw [if_neg hx, List.filter_eq_nil_iff.2 (fun y hy => by simpa [h y hy] using hx)]
    simp

/-- **C11**, perfect ensembles: if all members equal the (present) observation, `brier(over=t)` is 0,
and `brier(below=t)` is 0 unless the observation equals the threshold — where it is 1 (see `C11_false`).
-/
theorem C11_perfect_partial (workers : Nat) (kde : List (Fl K) → Fl K) (f o : NDArr (Fl K)) {ax : Int}
    (t : Thr K) (hax : AxisOK f.shape.length ax) (ho : o.shape = posShape f.shape ax)
    (ht : ThrOK t (posShape f.shape ax)) (hne : (posShape f.shape ax).prod ≠ 0)
    (hmem : f.shape.getD (axisNum f.shape.length ax) 0 ≠ 0) :
    ∃ b b', ensBrier workers .moments kde f ax o none (some t) = .ok b ∧
      ensBrier workers .moments kde f ax o (some t) none = .ok b' ∧
      ∀ k x c, InB o.shape k → o.get k = some x → thrAt t k = some c →
        (∀ y ∈ membersAt f ax k, y = some x) →
        b'.get k = some 0 ∧ (x ≠ c → b.get k = some 0) ∧ (x = c → b.get k = some 1) := by
  obtain ⟨r, r', b, b', h1, h2, h3, h4, h5, h6, h7⟩ :=
    ensBrier_spec workers .moments kde f o t hax ho ht (by decide) hne
  refine ⟨b, b', h3, h4, ?_⟩
  intro k x c hk hx hc hall
  obtain ⟨e1, e2, e3⟩ := h7 k hk
  obtain ⟨r2, r2', g1, -, -, -, g5⟩ := C09_fraction workers kde f t hax ht hne
  rw [h1] at g1
  cases g1
  have hr := (g5 k (ho ▸ hk)).1
  rw [fractionLe_const (membersAt_ne_nil f hax hmem (ho ▸ hk)) hall, hc] at hr
  rw [hr] at e1 e2
  rw [e1] at e3
  rw [hx, hc] at e2 e3
  have p1 : LeP (some x) (some c) ↔ x ≤ c := by simp [LeP]
  have p2 : LtP (some x) (some c) ↔ x < c := by simp [LtP]
  have p3 : LtP (some c) (some x) ↔ c < x := by simp [LtP]
  rw [e2, e3]
  simp only [Fl.sub, Fl.lift2, Option.map_some, Option.some_inj, indicator, p1, p2, p3]
  refine ⟨?_, ?_, ?_⟩
  · by_cases h : x ≤ c
    · rw [if_pos h, if_neg (not_lt.2 h)]; norm_num
    · rw [if_neg h, if_pos (not_le.1 h)]; norm_num
  · intro hxc
    by_cases h : x ≤ c
    · rw [if_pos h, if_pos (lt_of_le_of_ne h hxc)]; norm_num
    · rw [if_neg h, if_neg (fun h' => h h'.le)]; norm_num
  · rintro rfl
    rw [if_pos le_rfl, if_neg (lt_irrefl _)]; norm_num

/-- **C11** and **C12** fail at ties: an observation equal to the threshold with all members equal to it
scores the worst value 1 for `below`, but 0 for `over`. -/
theorem C11_false : okAnd (ensBrier (K := ℚ) 1 .moments (fun _ => none)
      ⟨[1, 2], [some 3, some 3], rfl⟩ (-1) ⟨[1], [some 3], rfl⟩ none (some (.scalar (some 3))))
      (fun r => r.data = [some 1]) = true := by
  decide +kernel

theorem C12_false : ∃ (f o : NDArr (Fl ℚ)) (t : Thr ℚ) (b b' : NDArr (Fl ℚ)),
    ensBrier 1 .moments (fun _ => none) f (-1) o none (some t) = .ok b ∧
    ensBrier 1 .moments (fun _ => none) f (-1) o (some t) none = .ok b' ∧
    b.data = [some 1] ∧ b'.data = [some 0] := by
  obtain ⟨b, h, hb⟩ := okAnd_iff.1 C11_false
  obtain ⟨b', h', hb'⟩ := okAnd_iff.1 (show okAnd (ensBrier (K := ℚ) 1 .moments (fun _ => none)
      ⟨[1, 2], [some 3, some 3], rfl⟩ (-1) ⟨[1], [some 3], rfl⟩ (some (.scalar (some 3))) none)
      (fun r => r.data = [some 0]) = true by decide +kernel)
  exact ⟨_, _, _, b, b', h, h', by simpa using hb, by simpa using hb'⟩

/-- **C12** away from ties: whatever the conversion method, `brier(over=t)` and `brier(below=t)` agree
at every position whose observation is present and differs from the threshold. -/
theorem C12_complement_partial (workers : Nat) (method : Method) (kde : List (Fl K) → Fl K)
    (f o : NDArr (Fl K)) {ax : Int} (t : Thr K) (hax : AxisOK f.shape.length ax)
    (ho : o.shape = posShape f.shape ax) (ht : ThrOK t (posShape f.shape ax))
    (hm : method ≠ .unknown) (hne : (posShape f.shape ax).prod ≠ 0) :
    ∃ b b', ensBrier workers method kde f ax o none (some t) = .ok b ∧
      ensBrier workers method kde f ax o (some t) none = .ok b' ∧
      ∀ k x c, InB o.shape k → o.get k = some x → thrAt t k = some c → x ≠ c →
        b.get k = b'.get k := by
  obtain ⟨r, r', b, b', h1, h2, h3, h4, h5, h6, h7⟩ :=
    ensBrier_spec workers method kde f o t hax ho ht hm hne
  refine ⟨b, b', h3, h4, ?_⟩
  intro k x c hk hx hc hxc
  obtain ⟨e1, e2, e3⟩ := h7 k hk
  rw [e2, e3, e1, hx, hc]
  have p2 : LtP (some x) (some c) ↔ x < c := by simp [LtP]
  have p3 : LtP (some c) (some x) ↔ c < x := by simp [LtP]
  cases r.get k with
  | none => rfl
  | some v =>
    simp only [Fl.sub, Fl.lift2, Option.map_some, Option.some_inj, indicator, p2, p3]
    rcases lt_or_gt_of_ne hxc with h | h
    · rw [if_pos h, if_neg (not_lt.2 h.le)]; ring
    · rw [if_pos h, if_neg (not_lt.2 h.le)]; ring

/-! ### C62, Brier -/

/-- **C62** fails for Brier scores: a missing observation is not skipped but treated as a non-event, so
the averaged score with skipping on (`1/2`) differs from the average over the present
position alone (`0`). -/
theorem C62_false : ∃ (f o : NDArr (Fl ℚ)) (t : Thr ℚ) (b r : NDArr (Fl ℚ)),
    ensBrier 1 .moments (fun _ => none) f (-1) o none (some t) = .ok b ∧
    bootOrAvg true none none 0 0 (fun _ _ _ => 0) b = .ok r ∧
    o.data = [some 1, none] ∧ b.data = [some 0, some 1] ∧ r.data = [some (1/2)] := by
  obtain ⟨b, h, hb⟩ := okAnd_iff.1 (show okAnd (ensBrier (K := ℚ) 1 .moments (fun _ => none)
      ⟨[2, 1], [some 1, some 1], rfl⟩ (-1) ⟨[2], [some 1, none], rfl⟩ none (some (.scalar (some 3))))
      (fun b => b.data = [some 0, some 1] ∧
        okAnd (bootOrAvg true none none 0 0 (fun _ _ _ => 0) b) (fun r => r.data = [some (1/2)])) =
      true by decide +kernel)
  simp only [Bool.decide_and, Bool.decide_eq_true, Bool.and_eq_true, decide_eq_true_eq] at hb
  obtain ⟨hb1, hb2⟩ := hb
  obtain ⟨r, hr, hr2⟩ := okAnd_iff.1 hb2
  exact ⟨_, _, _, b, r, h, hr, rfl, hb1, by simpa using hr2⟩

/-! ### C55 -/

theorem popAt_last (l : List Nat) (h : l ≠ []) : popAt l (-1) = .ok l.dropLast := by
  have hl : 1 ≤ l.length := List.length_pos_of_ne_nil h
  unfold popAt
  rw [if_pos (by omega), if_pos (by omega)]
  have : ((-1 : Int) + l.length).toNat = l.length - 1 := by omega
  rw [this, List.eraseIdx_length_sub_one]

theorem popAt_first (l : List Nat) (h : l ≠ []) : popAt l 0 = .ok l.tail := by
  have hl : 1 ≤ l.length := List.length_pos_of_ne_nil h
  unfold popAt
  rw [if_pos (by omega), if_neg (by omega)]
  simp

/-- **C55**: without `ensemble_axis`, construction succeeds exactly when dropping the last or the first
axis of `f` gives the shape of `o`, and picks the last axis if possible. -/
theorem C55_guess (fs os : List Nat) (a : Int) :
    validateEnsembleAxis fs os none = .ok a ↔
      fs ≠ [] ∧ ((fs.dropLast = os ∧ a = -1) ∨ (fs.dropLast ≠ os ∧ fs.tail = os ∧ a = 0)) := by
  by_cases hne : fs = []
  · subst hne
    simp [validateEnsembleAxis, guessEnsembleAxis, popAt, bind, Except.bind]
  · simp only [validateEnsembleAxis, guessEnsembleAxis, popAt_last _ hne, popAt_first _ hne, bind,
      Except.bind, pure, Except.pure]
    by_cases h1 : fs.dropLast = os
    · simp [h1, popAt_last _ hne, hne, eq_comm]
    · by_cases h2 : fs.tail = os
      · simp [h1, h2, popAt_first _ hne, hne, eq_comm]
      · simp [h1, h2]

/-- **C55**: an explicit axis is accepted exactly when it is the first or the last one (in either
spelling) and the remaining shape is that of `o`; it is kept as given. -/
theorem C55_explicit (fs os : List Nat) (ax a : Int) :
    validateEnsembleAxis fs os (some ax) = .ok a ↔
      a = ax ∧ AxisOK fs.length ax ∧
        ((axisNum fs.length ax = 0 ∧ fs.tail = os) ∨
          (axisNum fs.length ax + 1 = fs.length ∧ fs.dropLast = os)) := by
  simp only [validateEnsembleAxis, bind, Except.bind, pure, Except.pure]
  unfold popAt AxisOK axisNum
  by_cases hok : -(fs.length : Int) ≤ ax ∧ ax < fs.length
  · rw [if_pos hok]
    set n := (if ax < 0 then ax + (fs.length : Int) else ax).toNat with hn
    have hcond : (ax = 0 ∨ ax = -1 ∨ ax = -(fs.length : Int) ∨ ax = (fs.length : Int) - 1) ↔
        n = 0 ∨ n + 1 = fs.length := by
      rw [hn]; split <;> omega
    have h0 : n = 0 → fs.eraseIdx n = fs.tail := by intro h; rw [h]; simp
    have h1 : n + 1 = fs.length → fs.eraseIdx n = fs.dropLast := by
      intro h
      have : n = fs.length - 1 := by omega
      rw [this, List.eraseIdx_length_sub_one]
    by_cases hc : n = 0 ∨ n + 1 = fs.length
    · rw [if_pos (hcond.2 hc)]
      simp only
      by_cases he : fs.eraseIdx n = os
      · rw [if_pos he]
        constructor
        · intro h
          cases h
          refine ⟨rfl, hok, hc.imp (fun h => ⟨h, ?_⟩) (fun h => ⟨h, ?_⟩)⟩
          · rw [← h0 h]; exact he
          · rw [← h1 h]; exact he
        · rintro ⟨rfl, -⟩; rfl
      · rw [if_neg he]
        constructor
        · intro h; cases h
        · rintro ⟨-, -, ⟨h, h'⟩ | ⟨h, h'⟩⟩
          · exact absurd ((h0 h).trans h') he
          · exact absurd ((h1 h).trans h') he
    · rw [if_neg (fun h => hc (hcond.1 h))]
      constructor
      · intro h; cases h
      · rintro ⟨-, -, ⟨h, -⟩ | ⟨h, -⟩⟩
        · exact absurd (Or.inl h) hc
        · exact absurd (Or.inr h) hc
  · rw [if_neg hok]
    constructor
    · intro h; split at h <;> cases h
    · rintro ⟨-, h, -⟩; exact absurd h hok

/-! ### examples -/

example : AxisOK [2, 3].length (-1) ∧ ThrOK (K := ℚ) (.scalar (some 1)) (posShape [2, 3] (-1)) ∧
    (posShape [2, 3] (-1)).prod ≠ 0 ∧ [2, 3].getD (axisNum [2, 3].length (-1)) 0 ≠ 0 := by
  refine ⟨by unfold AxisOK; decide, trivial, by decide, by decide⟩

example : okAnd (ensCdf (K := ℚ) 2 .moments (fun _ => none)
    ⟨[2, 2], [some 1, some 5, some 4, none], rfl⟩ (-1) none (some (.scalar (some 4))))
    (fun r => r.data = [some (1/2), some (1/2)]) = true := by decide +kernel

example : okAnd (ensBrier (K := ℚ) 1 .moments (fun _ => none)
    ⟨[2, 2], [some 1, some 5, some 4, some 8], rfl⟩ 0 ⟨[2], [some 2, some 9], rfl⟩
    none (some (.array ⟨[2], [some 4, some 5], rfl⟩)))
    (fun r => r.data = [some 0, some (1/4)]) = true := by decide +kernel

example : validateEnsembleAxis [5, 3, 2] [3, 2] none = .ok 0 := rfl
example : validateEnsembleAxis [5, 3, 2] [3, 2] (some (-3)) = .ok (-3) := rfl
example : validateEnsembleAxis [5, 3, 2] [5, 2] (some 1) = .error .assertion := rfl

end Props
