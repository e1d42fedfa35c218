import Verif.Np.Array

/-! Loops that may raise. -/

namespace Np
variable {α β : Type}

/-- run a check on a successful result (used to evaluate concrete examples in the kernel) -/
def okAnd (x : Except Err α) (p : α → Bool) : Bool :=
  match x with
  | .ok r => p r
  | .error _ => false

theorem okAnd_iff {x : Except Err α} {p : α → Bool} :
    okAnd x p = true ↔ ∃ r, x = .ok r ∧ p r = true := by
  cases x <;> simp [okAnd]

/-- `[f(x) for x in l]` where `f` may raise: the first exception aborts the loop. -/
def mapE (f : α → Except Err β) : List α → Except Err (List β)
  | [] => .ok []
  | x :: l => match f x with
    | .error e => .error e
    | .ok y => match mapE f l with
      | .error e => .error e
      | .ok ys => .ok (y :: ys)

theorem mapE_ok {f : α → Except Err β} {l : List α} {r : List β} :
    mapE f l = .ok r ↔ List.Forall₂ (fun a b => f a = .ok b) l r := by
  induction l generalizing r with
  | nil => simp [mapE]
  | cons x l ih =>
    cases hx : f x with
    | error e =>
      simp only [mapE, hx]
      constructor
      · intro h; cases h
      · intro h; cases h; simp_all
    | ok y =>
      cases hl : mapE f l with
      | error e =>
        simp only [mapE, hx, hl]
        constructor
        · intro h; cases h
        · intro h
          cases h with
          | cons h1 h2 => rw [ih.2 h2] at hl; cases hl
      | ok ys =>
        simp only [mapE, hx, hl]
        constructor
        · intro h; cases h; exact List.Forall₂.cons hx (ih.1 hl)
        · intro h
          cases h with
          | cons h1 h2 =>
            rw [hx] at h1; cases h1
            rw [ih.2 h2] at hl; cases hl; rfl

theorem mapE_pure (f : α → β) (l : List α) : mapE (fun a => .ok (f a)) l = .ok (l.map f) := by
  rw [mapE_ok]
  induction l with
  | nil => simp
  | cons a l ih => exact List.Forall₂.cons rfl ih

theorem mapE_congr {f g : α → Except Err β} {l : List α} (h : ∀ a ∈ l, f a = g a) :
    mapE f l = mapE g l := by
  induction l with
  | nil => rfl
  | cons a l ih =>
    simp only [mapE, h a (by simp), ih fun b hb => h b (by simp [hb])]

theorem mapE_eq_map {f : α → Except Err β} {g : α → β} {l : List α}
    (h : ∀ a ∈ l, f a = .ok (g a)) : mapE f l = .ok (l.map g) := by
  rw [mapE_congr h, mapE_pure]

theorem mapE_map {γ : Type} (f : β → Except Err γ) (g : α → β) (l : List α) :
    mapE f (l.map g) = mapE (fun a => f (g a)) l := by
  induction l with
  | nil => rfl
  | cons a l ih => simp [mapE, ih]

theorem mapE_length {f : α → Except Err β} {l : List α} {r : List β} (h : mapE f l = .ok r) :
    r.length = l.length := (mapE_ok.1 h).length_eq.symm

theorem mapE_range_get {f : Nat → Except Err β} {n : Nat} {r : List β}
    (h : mapE f (List.range n) = .ok r) {j : Nat} (hj : j < n) :
    ∃ y, r[j]? = some y ∧ f j = .ok y := by
  have h1 := mapE_ok.1 h
  have hl := mapE_length h
  simp at hl
  have hj' : j < r.length := by omega
  refine ⟨r[j], by simp [hj'], ?_⟩
  have := List.forall₂_iff_get.1 h1
  have h2 := this.2 j (by simpa using hj) hj'
  simpa using h2

/-- the result is an error iff some element raises -/
theorem mapE_error_of {f : α → Except Err β} {l : List α} {a : α} (ha : a ∈ l) {e : Err}
    (h : f a = .error e) : ∃ e', mapE f l = .error e' := by
  cases hm : mapE f l with
  | error e' => exact ⟨e', rfl⟩
  | ok r =>
    exfalso
    have := mapE_ok.1 hm
    clear hm
    induction this with
    | nil => simp at ha
    | cons h1 _ ih =>
      rcases List.mem_cons.1 ha with rfl | h'
      · rw [h] at h1; cases h1
      · exact ih h'

end Np
