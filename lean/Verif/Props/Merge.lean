import Verif.Lemmas.Merge
import Verif.Props.Pool
import Verif.Props.EnsCrps

/-!
# The scores of a data set follow from those of its parts: C102
-/

set_option linter.unusedSectionVars false

namespace Props
open Np NDArr Spec Model Lemmas

variable {K : Type} [Field K] [LinearOrder K] [IsStrictOrderedRing K] [FloorSemiring K]
variable {A A₁ A₂ X X₁ X₂ : Type} {C C₁ C₂ : Cls} {I : ArgInfo A} {I₁ : ArgInfo A₁} {I₂ : ArgInfo A₂}
  {P : Prims X (PyVal K) A} {P₁ : Prims X₁ (PyVal K) A₁} {P₂ : Prims X₂ (PyVal K) A₂}
  {mids mids₁ mids₂ : FS (PyVal K) → Path → List (FS (PyVal K))} {c c₁ c₂ : Cfg K}
  {obs : X → NDArr (Fl K)} {obs₁ : X₁ → NDArr (Fl K)} {obs₂ : X₂ → NDArr (Fl K)}
  {emb : A → Arg K} {emb₁ : A₁ → Arg K} {emb₂ : A₂ → Arg K}

theorem isPooled_pool {skip : Bool} {β : Type} {g : β → Fl K} {l l₁ l₂ : List β} (h : l.Perm (l₁ ++ l₂))
    (h1 : l₁ ≠ []) (h2 : l₂ ≠ []) {v v₁ v₂ : Fl K} (hv : IsAvg skip (l.map g) v) (hv1 : IsAvg skip (l₁.map g) v₁)
    (hv2 : IsAvg skip (l₂.map g) v₂) :
    IsPooled skip (present (l₁.map g)).length (present (l₂.map g)).length v₁ v₂ v :=
  isPooled_of (by rw [← List.map_append]; exact h.map g) (by simpa using h1) (by simpa using h2) hv hv1 hv2

/-- **C102**, every class, even three different ones: when the pairs behind one number are those behind two others, taken
together, then each error is the average of the two, weighted with the numbers of complete pairs. The root mean square
error is the root of what the squared errors give. -/
theorem C102_errors (hP : Shared c obs emb P) (hP₁ : Shared c₁ obs₁ emb₁ P₁) (hP₂ : Shared c₂ obs₂ emb₂ P₂)
    (hskip₁ : c₁.skipNan = c.skipNan) (hskip₂ : c₂.skipNan = c.skipNan) {o : Obj X} {o₁ : Obj X₁} {o₂ : Obj X₂}
    {axes axes₁ axes₂ : Option (List Int)} (hb : o.boot = .none) (hb₁ : o₁.boot = .none) (hb₂ : o₂.boot = .none)
    (hax : axisArg o.avg = .ok axes) (hax₁ : axisArg o₁.avg = .ok axes₁) (hax₂ : axisArg o₂.avg = .ok axes₂)
    {w0 w0₁ w0₂ : World (PyVal K)} {f f₁ f₂ : NDArr (Fl K)}
    (hf : result C I P mids (.slot .fDeterm) (unsaved o) w0 = .ok (some (.num f)))
    (hf₁ : result C₁ I₁ P₁ mids₁ (.slot .fDeterm) (unsaved o₁) w0₁ = .ok (some (.num f₁)))
    (hf₂ : result C₂ I₂ P₂ mids₂ (.slot .fDeterm) (unsaved o₂) w0₂ = .ok (some (.num f₂)))
    (hsh : f.shape = (obs o.ext).shape) (hsh₁ : f₁.shape = (obs₁ o₁.ext).shape) (hsh₂ : f₂.shape = (obs₂ o₂.ext).shape)
    (hok : OptOK f.shape.length axes) (hok₁ : OptOK f₁.shape.length axes₁) (hok₂ : OptOK f₂.shape.length axes₂)
    (w w₁ w₂ : World (PyVal K)) :
    ∃ e a q r e₁ a₁ q₁ e₂ a₂ q₂, result C I P mids (.slot .error) (unsaved o) w = .ok (some (.num e)) ∧
      result C I P mids (.slot .abError) (unsaved o) w = .ok (some (.num a)) ∧
      result C I P mids (.slot .sqError) (unsaved o) w = .ok (some (.num q)) ∧
      result C I P mids .rmse (unsaved o) w = .ok (some (.num r)) ∧
      result C₁ I₁ P₁ mids₁ (.slot .error) (unsaved o₁) w₁ = .ok (some (.num e₁)) ∧
      result C₁ I₁ P₁ mids₁ (.slot .abError) (unsaved o₁) w₁ = .ok (some (.num a₁)) ∧
      result C₁ I₁ P₁ mids₁ (.slot .sqError) (unsaved o₁) w₁ = .ok (some (.num q₁)) ∧
      result C₂ I₂ P₂ mids₂ (.slot .error) (unsaved o₂) w₂ = .ok (some (.num e₂)) ∧
      result C₂ I₂ P₂ mids₂ (.slot .abError) (unsaved o₂) w₂ = .ok (some (.num a₂)) ∧
      result C₂ I₂ P₂ mids₂ (.slot .sqError) (unsaved o₂) w₂ = .ok (some (.num q₂)) ∧
      ∀ k k₁ k₂, InB (dropAxes (nums f.shape.length axes) f.shape) k →
        InB (dropAxes (nums f₁.shape.length axes₁) f₁.shape) k₁ →
        InB (dropAxes (nums f₂.shape.length axes₂) f₂.shape) k₂ →
        let Q₁ := pairsAt f₁ (obs₁ o₁.ext) (nums f₁.shape.length axes₁) k₁
        let Q₂ := pairsAt f₂ (obs₂ o₂.ext) (nums f₂.shape.length axes₂) k₂
        (pairsAt f (obs o.ext) (nums f.shape.length axes) k).Perm (Q₁ ++ Q₂) → Q₁ ≠ [] → Q₂ ≠ [] →
        IsPooled c.skipNan (complete Q₁).length (complete Q₂).length (e₁.get k₁) (e₂.get k₂) (e.get k) ∧
        IsPooled c.skipNan (complete Q₁).length (complete Q₂).length (a₁.get k₁) (a₂.get k₂) (a.get k) ∧
        IsPooled c.skipNan (complete Q₁).length (complete Q₂).length (q₁.get k₁) (q₂.get k₂) (q.get k) ∧
        r.get k = (q.get k).map c.sqrt := by
  obtain ⟨e, a, q, r, h1, h2, h3, h4, ⟨s1, -, -, -⟩, h5⟩ := C75_errors (mids := mids) (I := I) hP hb hax hf hsh hok w
  obtain ⟨e₁, a₁, q₁, r₁, h1₁, h2₁, h3₁, -, ⟨s1₁, -, -, -⟩, h5₁⟩ :=
    C75_errors (mids := mids₁) (I := I₁) hP₁ hb₁ hax₁ hf₁ hsh₁ hok₁ w₁
  obtain ⟨e₂, a₂, q₂, r₂, h1₂, h2₂, h3₂, -, ⟨s1₂, -, -, -⟩, h5₂⟩ :=
    C75_errors (mids := mids₂) (I := I₂) hP₂ hb₂ hax₂ hf₂ hsh₂ hok₂ w₂
  refine ⟨e, a, q, r, e₁, a₁, q₁, e₂, a₂, q₂, h1, h2, h3, h4, h1₁, h2₁, h3₁, h1₂, h2₂, h3₂,
    fun k k₁ k₂ hk hk₁ hk₂ => ?_⟩
  intro Q₁ Q₂ hp n1 n2
  obtain ⟨g1, g2, g3, g4⟩ := h5 k (s1 ▸ hk)
  obtain ⟨g1₁, g2₁, g3₁, -⟩ := h5₁ k₁ (s1₁ ▸ hk₁)
  obtain ⟨g1₂, g2₂, g3₂, -⟩ := h5₂ k₂ (s1₂ ▸ hk₂)
  rw [hskip₁] at g1₁ g2₁ g3₁
  rw [hskip₂] at g1₂ g2₂ g3₂
  have r1 := isPooled_pool hp n1 n2 g1 g1₁ g1₂
  have r2 := isPooled_pool hp n1 n2 g2 g2₁ g2₂
  have r3 := isPooled_pool hp n1 n2 g3 g3₁ g3₂
  rw [present_length_both, present_length_both] at r1 r2 r3
  exact ⟨r1, r2, r3, g4⟩

/-- **C102**, Brier score -/
theorem C102_brier (hP : Shared c obs emb P) (hP₁ : Shared c₁ obs₁ emb₁ P₁) (hP₂ : Shared c₂ obs₂ emb₂ P₂)
    (hskip₁ : c₁.skipNan = c.skipNan) (hskip₂ : c₂.skipNan = c.skipNan) {o : Obj X} {o₁ : Obj X₁} {o₂ : Obj X₂}
    {a : A} {a₁ : A₁} {a₂ : A₂} {t t₁ t₂ : Thr K} (hemb : emb a = .thr t) (hemb₁ : emb₁ a₁ = .thr t₁)
    (hemb₂ : emb₂ a₂ = .thr t₂) (isOver : Bool) {axes axes₁ axes₂ : Option (List Int)} (hb : o.boot = .none)
    (hb₁ : o₁.boot = .none) (hb₂ : o₂.boot = .none) (hax : axisArg o.avg = .ok axes)
    (hax₁ : axisArg o₁.avg = .ok axes₁) (hax₂ : axisArg o₂.avg = .ok axes₂) {w0 w0₁ w0₂ : World (PyVal K)}
    {p p₁ p₂ : NDArr (Fl K)}
    (hp : result C I P mids (.slot (.cdf (overArg isOver a) (belowArg isOver a))) (unsaved o) w0 = .ok (some (.num p)))
    (hp₁ : result C₁ I₁ P₁ mids₁ (.slot (.cdf (overArg isOver a₁) (belowArg isOver a₁))) (unsaved o₁) w0₁ =
      .ok (some (.num p₁)))
    (hp₂ : result C₂ I₂ P₂ mids₂ (.slot (.cdf (overArg isOver a₂) (belowArg isOver a₂))) (unsaved o₂) w0₂ =
      .ok (some (.num p₂)))
    (ht : ThrOK t (obs o.ext).shape) (ht₁ : ThrOK t₁ (obs₁ o₁.ext).shape) (ht₂ : ThrOK t₂ (obs₂ o₂.ext).shape)
    (hsh : p.shape = (obs o.ext).shape) (hsh₁ : p₁.shape = (obs₁ o₁.ext).shape) (hsh₂ : p₂.shape = (obs₂ o₂.ext).shape)
    (hok : OptOK (obs o.ext).shape.length axes) (hok₁ : OptOK (obs₁ o₁.ext).shape.length axes₁)
    (hok₂ : OptOK (obs₂ o₂.ext).shape.length axes₂) (w w₁ w₂ : World (PyVal K)) :
    ∃ r r₁ r₂, result C I P mids (.slot (.brier (overArg isOver a) (belowArg isOver a))) (unsaved o) w =
        .ok (some (.num r)) ∧
      result C₁ I₁ P₁ mids₁ (.slot (.brier (overArg isOver a₁) (belowArg isOver a₁))) (unsaved o₁) w₁ =
        .ok (some (.num r₁)) ∧
      result C₂ I₂ P₂ mids₂ (.slot (.brier (overArg isOver a₂) (belowArg isOver a₂))) (unsaved o₂) w₂ =
        .ok (some (.num r₂)) ∧
      ∀ k k₁ k₂, InB (dropAxes (nums (obs o.ext).shape.length axes) (obs o.ext).shape) k →
        InB (dropAxes (nums (obs₁ o₁.ext).shape.length axes₁) (obs₁ o₁.ext).shape) k₁ →
        InB (dropAxes (nums (obs₂ o₂.ext).shape.length axes₂) (obs₂ o₂.ext).shape) k₂ →
        let Q₁ := eventPool p₁ (obs₁ o₁.ext) t₁ (nums (obs₁ o₁.ext).shape.length axes₁) k₁
        let Q₂ := eventPool p₂ (obs₂ o₂.ext) t₂ (nums (obs₂ o₂.ext).shape.length axes₂) k₂
        (eventPool p (obs o.ext) t (nums (obs o.ext).shape.length axes) k).Perm (Q₁ ++ Q₂) → Q₁ ≠ [] → Q₂ ≠ [] →
        IsPooled c.skipNan (present (Q₁.map (·.1))).length (present (Q₂.map (·.1))).length (r₁.get k₁) (r₂.get k₂)
          (r.get k) := by
  obtain ⟨r, h1, h2, h3⟩ := C75_brier (mids := mids) hP hemb isOver hb hax hp ht hsh hok w
  obtain ⟨r₁, h1₁, h2₁, h3₁⟩ := C75_brier (mids := mids₁) hP₁ hemb₁ isOver hb₁ hax₁ hp₁ ht₁ hsh₁ hok₁ w₁
  obtain ⟨r₂, h1₂, h2₂, h3₂⟩ := C75_brier (mids := mids₂) hP₂ hemb₂ isOver hb₂ hax₂ hp₂ ht₂ hsh₂ hok₂ w₂
  refine ⟨r, r₁, r₂, h1, h1₁, h1₂, fun k k₁ k₂ hk hk₁ hk₂ => ?_⟩
  intro Q₁ Q₂ hpool n1 n2
  have g := h3 k (h2 ▸ hk)
  have g₁ := h3₁ k₁ (h2₁ ▸ hk₁)
  have g₂ := h3₂ k₂ (h2₂ ▸ hk₂)
  rw [hskip₁] at g₁
  rw [hskip₂] at g₂
  let F : Fl K × Fl K × Fl K → Fl K := fun x =>
    x.1.map fun v => (v - indicator (if isOver then LtP x.2.2 x.2.1 else LtP x.2.1 x.2.2)) ^ 2
  have e : ∀ (t : Thr K) (p o : NDArr (Fl K)) (B k : List Nat),
      brierAt isOver t p o B k = (eventPool p o t B k).map F := by
    intro t p o B k
    rw [eventPool, List.map_map]; rfl
  have el : ∀ Q : List (Fl K × Fl K × Fl K), (present (Q.map F)).length = (present (Q.map (·.1))).length := by
    intro Q
    induction Q with
    | nil => rfl
    | cons x Q ih =>
      obtain ⟨x, y⟩ := x
      cases x
      · exact ih
      · exact congrArg Nat.succ ih
  rw [e] at g g₁ g₂
  have := isPooled_pool hpool n1 n2 g g₁ g₂
  rwa [el, el] at this

/-- **C102**, ensemble class, CRPS: the weights are the numbers of positions that have a CRPS -/
theorem C102_crps {oi o oi₁ o₁ oi₂ o₂ : Obj (EnsX K)} {w w' w1 w1' w2 w2' : World (PyVal K)}
    (h : construct (ensPrims c emb) mids oi w = (.ok o, w'))
    (h₁ : construct (ensPrims c₁ emb₁) mids₁ oi₁ w1 = (.ok o₁, w1'))
    (h₂ : construct (ensPrims c₂ emb₂) mids₂ oi₂ w2 = (.ok o₂, w2'))
    (hskip₁ : c₁.skipNan = c.skipNan) (hskip₂ : c₂.skipNan = c.skipNan)
    (hb : oi.boot = .none) (hb₁ : oi₁.boot = .none) (hb₂ : oi₂.boot = .none) {pt : Fl K → List (Fl K) → Fl K}
    {split split₁ split₂ : Bool} (hc : ∀ o f ax, c.crpsEns o f ax = ensembleCrps pt split ax o f)
    (hc₁ : ∀ o f ax, c₁.crpsEns o f ax = ensembleCrps pt split₁ ax o f)
    (hc₂ : ∀ o f ax, c₂.crpsEns o f ax = ensembleCrps pt split₂ ax o f)
    (hne : 0 < oi.ext.o.shape.headD 0) (hne₁ : 0 < oi₁.ext.o.shape.headD 0) (hne₂ : 0 < oi₂.ext.o.shape.headD 0)
    (hok : OptOK oi.ext.o.shape.length (axesOf oi.avg)) (hok₁ : OptOK oi₁.ext.o.shape.length (axesOf oi₁.avg))
    (hok₂ : OptOK oi₂.ext.o.shape.length (axesOf oi₂.avg)) (v v₁ v₂ : World (PyVal K)) :
    ∃ ax ax₁ ax₂ r r₁ r₂, o.ext.axis = some ax ∧ o₁.ext.axis = some ax₁ ∧ o₂.ext.axis = some ax₂ ∧
      result .ensemble I (ensPrims c emb) mids (.slot .crps) (unsaved o) v = .ok (some (.num r)) ∧
      result .ensemble I₁ (ensPrims c₁ emb₁) mids₁ (.slot .crps) (unsaved o₁) v₁ = .ok (some (.num r₁)) ∧
      result .ensemble I₂ (ensPrims c₂ emb₂) mids₂ (.slot .crps) (unsaved o₂) v₂ = .ok (some (.num r₂)) ∧
      ∀ k k₁ k₂, InB (dropAxes (nums oi.ext.o.shape.length (axesOf oi.avg)) oi.ext.o.shape) k →
        InB (dropAxes (nums oi₁.ext.o.shape.length (axesOf oi₁.avg)) oi₁.ext.o.shape) k₁ →
        InB (dropAxes (nums oi₂.ext.o.shape.length (axesOf oi₂.avg)) oi₂.ext.o.shape) k₂ →
        let Q₁ := memberPool oi₁.ext.f oi₁.ext.o ax₁ (nums oi₁.ext.o.shape.length (axesOf oi₁.avg)) k₁
        let Q₂ := memberPool oi₂.ext.f oi₂.ext.o ax₂ (nums oi₂.ext.o.shape.length (axesOf oi₂.avg)) k₂
        (memberPool oi.ext.f oi.ext.o ax (nums oi.ext.o.shape.length (axesOf oi.avg)) k).Perm (Q₁ ++ Q₂) →
        Q₁ ≠ [] → Q₂ ≠ [] →
        IsPooled c.skipNan (present (Q₁.map fun x => pt x.1 x.2)).length (present (Q₂.map fun x => pt x.1 x.2)).length
          (r₁.get k₁) (r₂.get k₂) (r.get k) := by
  obtain ⟨ax, r, h1, h2, h3, h4⟩ := C75_ens_crps (I := I) h hb hc hne hok v
  obtain ⟨ax₁, r₁, h1₁, h2₁, h3₁, h4₁⟩ := C75_ens_crps (I := I₁) h₁ hb₁ hc₁ hne₁ hok₁ v₁
  obtain ⟨ax₂, r₂, h1₂, h2₂, h3₂, h4₂⟩ := C75_ens_crps (I := I₂) h₂ hb₂ hc₂ hne₂ hok₂ v₂
  refine ⟨ax, ax₁, ax₂, r, r₁, r₂, h1, h1₁, h1₂, h2, h2₁, h2₂, fun k k₁ k₂ hk hk₁ hk₂ => ?_⟩
  intro Q₁ Q₂ hpool n1 n2
  have g := h4 k (h3 ▸ hk)
  have g₁ := h4₁ k₁ (h3₁ ▸ hk₁)
  have g₂ := h4₂ k₂ (h3₂ ▸ hk₂)
  rw [hskip₁] at g₁
  rw [hskip₂] at g₂
  have e : ∀ (f o : NDArr (Fl K)) (ax : Int) (B k : List Nat),
      ((fiberIdx o.shape B k).map fun i => pt (o.get i) (membersAt f ax i)) =
        (memberPool f o ax B k).map fun x => pt x.1 x.2 := by
    intro f o ax B k
    rw [memberPool, List.map_map]; rfl
  rw [e] at g g₁ g₂
  exact isPooled_pool hpool n1 n2 g g₁ g₂

/-! ### cutting along an averaged axis -/

theorem pairsAt_ne_nil {α β : Type} [Inhabited α] [Inhabited β] {f : NDArr α} {o : NDArr β} {B k : List Nat}
    (hpos : 0 ∉ f.shape) (hk : InB (dropAxes B f.shape) k) : pairsAt f o B k ≠ [] := by
  unfold pairsAt
  simpa using fiberIdx_ne hpos hk

theorem zero_notMem_set {s : List Nat} {n m : Nat} (hs : 0 ∉ s) (hm : 0 < m) : 0 ∉ s.set n m := by
  intro h
  rcases List.mem_or_eq_of_mem_set h with h | h
  · exact hs h
  · omega

/-- **C102**, deterministic class, from the constructor: cut the data in two along an averaged axis (two periods; odd and
even days). The errors of the whole are those of the parts, averaged with the numbers of complete pairs as weights; the
squared root mean square errors behave in the same way. -/
theorem C102_det_cut {oi o o₁ o₂ : Obj (DetX K)} {w w' w1 w1' w2 w2' : World (PyVal K)} {n : Nat} {σ τ : List Nat}
    (h : construct (detPrims c emb) mids oi w = (.ok o, w'))
    (h₁ : construct (detPrims c emb) mids (detTake n σ oi) w1 = (.ok o₁, w1'))
    (h₂ : construct (detPrims c emb) mids (detTake n τ oi) w2 = (.ok o₂, w2')) (hb : oi.boot = .none)
    (hok : OptOK oi.ext.f.shape.length (axesOf oi.avg)) (hn : n < oi.ext.f.shape.length)
    (havg : n ∈ nums oi.ext.f.shape.length (axesOf oi.avg))
    (hcut : (σ ++ τ).Perm (List.range (oi.ext.f.shape.getD n 0))) (hσ : σ ≠ []) (hτ : τ ≠ []) (hpos : 0 ∉ oi.ext.f.shape)
    (v v₁ v₂ : World (PyVal K)) :
    ∃ e a q r e₁ a₁ q₁ r₁ e₂ a₂ q₂ r₂,
      result .determ I (detPrims c emb) mids (.slot .error) (unsaved o) v = .ok (some (.num e)) ∧
      result .determ I (detPrims c emb) mids (.slot .abError) (unsaved o) v = .ok (some (.num a)) ∧
      result .determ I (detPrims c emb) mids (.slot .sqError) (unsaved o) v = .ok (some (.num q)) ∧
      result .determ I (detPrims c emb) mids .rmse (unsaved o) v = .ok (some (.num r)) ∧
      result .determ I (detPrims c emb) mids (.slot .error) (unsaved o₁) v₁ = .ok (some (.num e₁)) ∧
      result .determ I (detPrims c emb) mids (.slot .abError) (unsaved o₁) v₁ = .ok (some (.num a₁)) ∧
      result .determ I (detPrims c emb) mids (.slot .sqError) (unsaved o₁) v₁ = .ok (some (.num q₁)) ∧
      result .determ I (detPrims c emb) mids .rmse (unsaved o₁) v₁ = .ok (some (.num r₁)) ∧
      result .determ I (detPrims c emb) mids (.slot .error) (unsaved o₂) v₂ = .ok (some (.num e₂)) ∧
      result .determ I (detPrims c emb) mids (.slot .abError) (unsaved o₂) v₂ = .ok (some (.num a₂)) ∧
      result .determ I (detPrims c emb) mids (.slot .sqError) (unsaved o₂) v₂ = .ok (some (.num q₂)) ∧
      result .determ I (detPrims c emb) mids .rmse (unsaved o₂) v₂ = .ok (some (.num r₂)) ∧
      (e₁.shape = e.shape ∧ e₂.shape = e.shape) ∧
      ∀ k, InB e.shape k →
        let B := nums oi.ext.f.shape.length (axesOf oi.avg)
        let N := fun ρ => (complete (pairsAt (takeAlong oi.ext.f n ρ) (takeAlong oi.ext.o n ρ) B k)).length
        IsPooled c.skipNan (N σ) (N τ) (e₁.get k) (e₂.get k) (e.get k) ∧
        IsPooled c.skipNan (N σ) (N τ) (a₁.get k) (a₂.get k) (a.get k) ∧
        IsPooled c.skipNan (N σ) (N τ) (q₁.get k) (q₂.get k) (q.get k) ∧
        (IsSqrt c.sqrt → IsPooled c.skipNan (N σ) (N τ) ((r₁.get k).map (· ^ 2)) ((r₂.get k).map (· ^ 2))
          ((r.get k).map (· ^ 2))) := by
  obtain ⟨hr, he, -⟩ := C75_construct_det h
  have hsh : oi.ext.f.shape = oi.ext.o.shape := he ▸ hr.shape
  obtain ⟨e, a, q, r, h1, h2, h3, h4, ⟨s1, s2, s3, s4⟩, h5⟩ := C75_det_metrics (I := I) h hb hok v
  obtain ⟨e₁, a₁, q₁, r₁, h1₁, h2₁, h3₁, h4₁, ⟨s1₁, -, -, -⟩, h5₁⟩ :=
    C75_det_metrics (I := I) h₁ hb (by simpa [detTake, shape_takeAlong] using hok) v₁
  obtain ⟨e₂, a₂, q₂, r₂, h1₂, h2₂, h3₂, h4₂, ⟨s1₂, -, -, -⟩, h5₂⟩ :=
    C75_det_metrics (I := I) h₂ hb (by simpa [detTake, shape_takeAlong] using hok) v₂
  simp only [detTake, shape_takeAlong, List.length_set] at s1₁ h5₁ s1₂ h5₂
  rw [dropAxes_set, if_pos havg, ← s1] at s1₁ s1₂
  refine ⟨e, a, q, r, e₁, a₁, q₁, r₁, e₂, a₂, q₂, r₂, h1, h2, h3, h4, h1₁, h2₁, h3₁, h4₁, h1₂, h2₂, h3₂, h4₂,
    ⟨s1₁, s1₂⟩, fun k hk => ?_⟩
  intro B N
  obtain ⟨g1, g2, g3, g4⟩ := h5 k hk
  obtain ⟨g1₁, g2₁, g3₁, g4₁⟩ := h5₁ k (s1₁ ▸ hk)
  obtain ⟨g1₂, g2₂, g3₂, g4₂⟩ := h5₂ k (s1₂ ▸ hk)
  have hp := pairsAt_cut (k := k) hsh hn havg hcut
  rw [s1] at hk
  have ne : ∀ ρ : List Nat, ρ ≠ [] → pairsAt (takeAlong oi.ext.f n ρ) (takeAlong oi.ext.o n ρ) B k ≠ [] := fun ρ hρ =>
    pairsAt_ne_nil (by rw [shape_takeAlong]; exact zero_notMem_set hpos (List.length_pos_iff.2 hρ))
      (by rw [shape_takeAlong, dropAxes_set, if_pos havg]; exact hk)
  have p1 := isPooled_pool hp (ne σ hσ) (ne τ hτ) g1 g1₁ g1₂
  have p2 := isPooled_pool hp (ne σ hσ) (ne τ hτ) g2 g2₁ g2₂
  have p3 := isPooled_pool hp (ne σ hσ) (ne τ hτ) g3 g3₁ g3₂
  rw [present_length_both, present_length_both] at p1 p2 p3
  refine ⟨p1, p2, p3, fun hs => ?_⟩
  have hsq : ∀ {Q : List (Fl K × Fl K)} {x : Fl K}, IsAvg c.skipNan (Q.map (both fun x y => (x - y) ^ 2)) x →
      ((x.map c.sqrt).map fun x => x ^ 2) = x := by
    intro Q x hx
    cases x with
    | none => rfl
    | some x =>
      have h0 : 0 ≤ x := by
        unfold IsAvg at hx
        split at hx
        · cases hx
        cases hx
        refine avg_nonneg fun y hy => ?_
        obtain ⟨z, hz, e⟩ := List.mem_filterMap.1 hy
        obtain ⟨⟨u, v⟩, -, rfl⟩ := List.mem_map.1 hz
        have hy : both (fun x y : K => (x - y) ^ 2) (u, v) = some y := e
        cases u <;> cases v <;> cases hy
        positivity
      simp [pow_two, hs.sq x h0]
  rw [g4, g4₁, g4₂, hsq g3, hsq g3₁, hsq g3₂]
  exact p3

theorem memberPool_cut {f o : NDArr (Fl K)} {ax : Int} {B σ τ k : List Nat} {n : Nat} (hax : AxisOK f.shape.length ax)
    (hsh : o.shape = posShape f.shape ax) (hn : n < f.shape.length) (hne : n ≠ axisNum f.shape.length ax)
    (hcut : (σ ++ τ).Perm (List.range (f.shape.getD n 0))) (hB : keptPos [axisNum f.shape.length ax] n ∈ B) :
    let m := keptPos [axisNum f.shape.length ax] n
    (memberPool f o ax B k).Perm (memberPool (takeAlong f n σ) (takeAlong o m σ) ax B k ++
      memberPool (takeAlong f n τ) (takeAlong o m τ) ax B k) := by
  intro m
  have hlt := axisNum_lt hax
  have hd : dropAxes [axisNum f.shape.length ax] f.shape = o.shape := by rw [dropAxes_single hlt, hsh]; rfl
  have hA : n ∉ [axisNum f.shape.length ax] := by simpa using hne
  have hm : m < o.shape.length := by rw [← hd]; exact keptPos_lt hn hA
  have hcut' : (σ ++ τ).Perm (List.range (o.shape.getD m 0)) := by rw [← hd, dropAxes_getD _ hA]; exact hcut
  have hlt' : ∀ j ∈ σ ++ τ, j < f.shape.getD n 0 := fun j hj => by simpa using hcut.mem_iff.1 hj
  have e : ∀ ρ : List Nat, (∀ j ∈ ρ, j < f.shape.getD n 0) → memberPool (takeAlong f n ρ) (takeAlong o m ρ) ax B k =
      ((fiberIdx (o.shape.set m ρ.length) B k).map (lookAt m ρ)).map fun i => (o.get i, membersAt f ax i) := by
    intro ρ hρ
    unfold memberPool
    rw [shape_takeAlong, List.map_map]
    refine List.map_congr_left fun i hi => ?_
    have hi := (mem_fiberIdx.1 hi).1
    rw [get_takeAlong o hi, membersAt_taken hn hne hρ (by rw [dropAxes_set, if_neg hA, hd]; exact hi)]
    rfl
  rw [e σ fun j hj => hlt' j (List.mem_append_left _ hj), e τ fun j hj => hlt' j (List.mem_append_right _ hj),
    ← List.map_append]
  exact ((fiberIdx_cut hm hB hcut').map _).symm

/-- **C102**, ensemble class, from the constructor: the CRPS of data cut along an averaged axis. -/
theorem C102_crps_cut {oi o o₁ o₂ : Obj (EnsX K)} {w w' w1 w1' w2 w2' : World (PyVal K)} {ax : Int} {n : Nat}
    {σ τ : List Nat} (h : construct (ensPrims c emb) mids oi w = (.ok o, w')) (hax : oi.ext.axis = some ax)
    (h₁ : construct (ensPrims c emb) mids (ensTake n (keptPos [axisNum oi.ext.f.shape.length ax] n) σ oi) w1 =
      (.ok o₁, w1'))
    (h₂ : construct (ensPrims c emb) mids (ensTake n (keptPos [axisNum oi.ext.f.shape.length ax] n) τ oi) w2 =
      (.ok o₂, w2')) (hb : oi.boot = .none)
    {pt : Fl K → List (Fl K) → Fl K} {split : Bool} (hc : ∀ o f ax, c.crpsEns o f ax = ensembleCrps pt split ax o f)
    (hne : oi.ext.o.shape ≠ []) (hpos : 0 ∉ oi.ext.o.shape) (hok : OptOK oi.ext.o.shape.length (axesOf oi.avg))
    (hn : n < oi.ext.f.shape.length) (hna : n ≠ axisNum oi.ext.f.shape.length ax)
    (havg : keptPos [axisNum oi.ext.f.shape.length ax] n ∈ nums oi.ext.o.shape.length (axesOf oi.avg))
    (hcut : (σ ++ τ).Perm (List.range (oi.ext.f.shape.getD n 0))) (hσ : σ ≠ []) (hτ : τ ≠ [])
    (v v₁ v₂ : World (PyVal K)) :
    ∃ r r₁ r₂, result .ensemble I (ensPrims c emb) mids (.slot .crps) (unsaved o) v = .ok (some (.num r)) ∧
      result .ensemble I (ensPrims c emb) mids (.slot .crps) (unsaved o₁) v₁ = .ok (some (.num r₁)) ∧
      result .ensemble I (ensPrims c emb) mids (.slot .crps) (unsaved o₂) v₂ = .ok (some (.num r₂)) ∧
      (r₁.shape = r.shape ∧ r₂.shape = r.shape) ∧
      ∀ k, InB r.shape k →
        let m := keptPos [axisNum oi.ext.f.shape.length ax] n
        let N := fun ρ => (present ((memberPool (takeAlong oi.ext.f n ρ) (takeAlong oi.ext.o m ρ) ax
          (nums oi.ext.o.shape.length (axesOf oi.avg)) k).map fun x => pt x.1 x.2)).length
        IsPooled c.skipNan (N σ) (N τ) (r₁.get k) (r₂.get k) (r.get k) := by
  obtain ⟨ax0, fc, hr, -, hf, ho, -, hsame, -⟩ := C75_construct_ens h
  have hax0 := hsame ax hax
  subst hax0
  have hAx := hr.axisOK
  have hsh := hr.shape
  rw [hf] at hAx hsh
  rw [ho] at hsh
  set m := keptPos [axisNum oi.ext.f.shape.length ax0] n with hm
  set B := nums oi.ext.o.shape.length (axesOf oi.avg) with hB
  have hhead : ∀ s : List Nat, s ≠ [] → 0 ∉ s → 0 < s.headD 0 := by
    intro s h1 h2
    cases s with
    | nil => exact absurd rfl h1
    | cons a s => exact Nat.pos_of_ne_zero fun e => h2 (by simp only [List.headD_cons] at e; simp [e])
  have hset : ∀ ρ : List Nat, ρ ≠ [] → 0 < (oi.ext.o.shape.set m ρ.length).headD 0 := fun ρ hρ =>
    hhead _ (by simpa using hne) (zero_notMem_set hpos (List.length_pos_iff.2 hρ))
  obtain ⟨ax1, r, h1, h2, h3, h4⟩ := C75_ens_crps (I := I) h hb hc (hhead _ hne hpos) hok v
  obtain ⟨ax2, r₁, h1₁, h2₁, h3₁, h4₁⟩ := C75_ens_crps (I := I) h₁ hb hc
    (by simpa [ensTake, shape_takeAlong] using hset σ hσ) (by simpa [ensTake, shape_takeAlong] using hok) v₁
  obtain ⟨ax3, r₂, h1₂, h2₂, h3₂, h4₂⟩ := C75_ens_crps (I := I) h₂ hb hc
    (by simpa [ensTake, shape_takeAlong] using hset τ hτ) (by simpa [ensTake, shape_takeAlong] using hok) v₂
  have e1 : ax1 = ax0 := by rw [hr.axis] at h1; cases h1; rfl
  obtain ⟨_, _, hr₁, -, -, -, -, hs₁, -⟩ := C75_construct_ens h₁
  obtain ⟨_, _, hr₂, -, -, -, -, hs₂, -⟩ := C75_construct_ens h₂
  have e2 : ax2 = ax0 := by rw [hr₁.axis, hs₁ ax0 hax] at h1₁; cases h1₁; rfl
  have e3 : ax3 = ax0 := by rw [hr₂.axis, hs₂ ax0 hax] at h1₂; cases h1₂; rfl
  subst e1
  subst e2
  subst e3
  simp only [ensTake, shape_takeAlong, List.length_set] at h3₁ h4₁ h3₂ h4₂
  rw [← hB] at h3 h4 h3₁ h4₁ h3₂ h4₂
  rw [dropAxes_set, if_pos havg, ← h3] at h3₁ h3₂
  refine ⟨r, r₁, r₂, h2, h2₁, h2₂, ⟨h3₁, h3₂⟩, fun k hk => ?_⟩
  intro m' N
  have g := h4 k hk
  have g₁ := h4₁ k (h3₁ ▸ hk)
  have g₂ := h4₂ k (h3₂ ▸ hk)
  have e : ∀ (f o : NDArr (Fl K)) (ax : Int) (B k : List Nat),
      ((fiberIdx o.shape B k).map fun i => pt (o.get i) (membersAt f ax i)) =
        (memberPool f o ax B k).map fun x => pt x.1 x.2 := by
    intro f o ax B k
    rw [memberPool, List.map_map]; rfl
  have eρ := fun ρ => e (takeAlong oi.ext.f n ρ) (takeAlong oi.ext.o m ρ) ax3 B k
  simp only [shape_takeAlong] at eρ
  rw [e] at g
  rw [eρ] at g₁ g₂
  rw [h3] at hk
  have ne : ∀ ρ : List Nat, ρ ≠ [] → memberPool (takeAlong oi.ext.f n ρ) (takeAlong oi.ext.o m ρ) ax3 B k ≠ [] := by
    intro ρ hρ
    unfold memberPool
    rw [shape_takeAlong]
    simpa using fiberIdx_ne (zero_notMem_set hpos (List.length_pos_iff.2 hρ))
      (by rw [dropAxes_set, if_pos havg]; exact hk)
  exact isPooled_pool (memberPool_cut hAx hsh hn hna hcut havg) (ne σ hσ) (ne τ hτ) g g₁ g₂

/-! ### concrete cases -/

/-- four days at one station, of which the third lacks its observation -/
def fourDays : DetX ℚ :=
  ⟨⟨[1, 4], [some 1, some 2, some 3, some 8], rfl⟩, ⟨[1, 4], [some 2, some 4, none, some 2], rfl⟩⟩

def fourDaysO : Obj (DetX ℚ) := ⟨.int 1, .none, .none, some true, fourDays⟩

/-- The hypotheses can be met, and the weights matter: errors −1 and −2 on the first two days, 6 on the last one. The
whole has the average 1 = (2·(−3/2) + 1·6)/3 when missing values are skipped. -/
example : (∃ o w, construct (detPrims { distCfg with skipNan := true } embInt) noMids fourDaysO world0 = (.ok o, w) ∧
      numOf (result .determ intInfo (detPrims { distCfg with skipNan := true } embInt) noMids (.slot .error) (unsaved o) w) =
        some ([1], [some 1])) ∧
    (∃ o w, construct (detPrims { distCfg with skipNan := true } embInt) noMids (detTake 1 [0, 1] fourDaysO) world0 =
        (.ok o, w) ∧
      numOf (result .determ intInfo (detPrims { distCfg with skipNan := true } embInt) noMids (.slot .error) (unsaved o) w) =
        some ([1], [some (-3 / 2)])) ∧
    (∃ o w, construct (detPrims { distCfg with skipNan := true } embInt) noMids (detTake 1 [3, 2] fourDaysO) world0 =
        (.ok o, w) ∧
      numOf (result .determ intInfo (detPrims { distCfg with skipNan := true } embInt) noMids (.slot .error) (unsaved o) w) =
        some ([1], [some 6])) ∧
    OptOK fourDays.f.shape.length (axesOf fourDaysO.avg) ∧ 1 ∈ nums fourDays.f.shape.length (axesOf fourDaysO.avg) ∧
    ([0, 1] ++ [3, 2]).Perm (List.range (fourDays.f.shape.getD 1 0)) ∧ 0 ∉ fourDays.f.shape ∧
    (complete (pairsAt (takeAlong fourDays.f 1 [0, 1]) (takeAlong fourDays.o 1 [0, 1]) [1] [0])).length = 2 ∧
    (complete (pairsAt (takeAlong fourDays.f 1 [3, 2]) (takeAlong fourDays.o 1 [3, 2]) [1] [0])).length = 1 := by
  refine ⟨⟨_, _, rfl, by decide +kernel⟩, ⟨_, _, rfl, by decide +kernel⟩, ⟨_, _, rfl, by decide +kernel⟩, ?_, ?_, ?_, ?_,
    ?_, ?_⟩
  · exact ⟨by simp [AxisOK, fourDays], by decide +kernel⟩
  all_goals decide +kernel

/-- The hypotheses of the ensemble theorem can be met. -/
example : builtAxis (construct (ensPrims distCfg embInt) noMids (ensTake 2 1 [0] ensStationsO) world0) = some 0 ∧
    builtAxis (construct (ensPrims distCfg embInt) noMids (ensTake 2 1 [1] ensStationsO) world0) = some 0 ∧
    keptPos [axisNum ensStations.f.shape.length 0] 2 = 1 ∧ 1 ∈ nums ensStations.o.shape.length (axesOf ensStationsO.avg) ∧
    ([0] ++ [1]).Perm (List.range (ensStations.f.shape.getD 2 0)) ∧ 0 ∉ ensStations.o.shape := by
  decide +kernel

end Props
