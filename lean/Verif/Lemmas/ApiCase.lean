import Verif.Lemmas.History
import Verif.Model.ApiInst
import Verif.Model.Settings
import Mathlib.Algebra.Order.Field.Rat
import Mathlib.Data.Rat.Floor
import Mathlib.Tactic.IntervalCases

/-! A concrete verifier with integer thresholds, for examples and counterexamples. -/

namespace Model
open Np Spec

/-- integers as arguments -/
def intInfo : ArgInfo Int where
  text := intStr
  hasLen _ := false
  isArr _ := false
  ravelLen _ := 1
  len _ := none
  items _ := none

theorem digitChar_ok (d : Nat) : Nat.digitChar d ≠ 'v' ∧ Nat.digitChar d ≠ 'w' ∧ Nat.digitChar d ≠ ' ' := by
  by_cases h : d < 16
  · interval_cases d <;> decide
  · have : Nat.digitChar d = '*' := by
      unfold Nat.digitChar
      repeat rw [if_neg (by omega)]
    rw [this]; decide

theorem natStr_ok (n : Nat) : ∀ c ∈ natStr n, c ≠ 'v' ∧ c ≠ 'w' ∧ c ≠ ' ' := by
  intro c hc
  unfold natStr at hc
  split at hc
  · simp only [List.mem_singleton] at hc
    subst hc; decide
  · obtain ⟨d, -, rfl⟩ := List.mem_map.1 hc
    exact digitChar_ok d

theorem intStr_ok (i : Int) : ∀ c ∈ intStr i, c ≠ 'v' ∧ c ≠ 'w' ∧ c ≠ ' ' := by
  intro c hc
  unfold intStr at hc
  split at hc
  · rcases List.mem_cons.1 hc with rfl | hc
    · decide
    · exact natStr_ok _ c hc
  · exact natStr_ok _ c hc

theorem noSpaces_self {s : List Char} (h : ' ' ∉ s) : noSpaces s = s := by
  unfold noSpaces
  conv_rhs => rw [← List.map_id s]
  apply List.map_congr_left
  intro c hc
  simp only [id_eq]
  rw [if_neg]
  rintro rfl
  exact h hc

theorem textOK_int : TextOK intInfo := by
  have hs : ∀ i : Int, noSpaces (intStr i) = intStr i := fun i =>
    noSpaces_self fun h => (intStr_ok i _ h).2.2 rfl
  have hn : noSpaces "None".toList = "None".toList := by decide
  have hN : pyInt "None".toList = .error .value := by decide
  refine ⟨⟨fun a h => (intStr_ok a _ h).1 rfl, fun a h => (intStr_ok a _ h).2.1 rfl⟩, ?_⟩
  intro a b h
  cases a with
  | none =>
    cases b with
    | none => rfl
    | some b =>
      simp only [argText, intInfo, hs, hn] at h
      have := pyInt_intStr b
      rw [← h, hN] at this
      cases this
  | some a =>
    cases b with
    | none =>
      simp only [argText, intInfo, hs, hn] at h
      have := pyInt_intStr a
      rw [h, hN] at this
      cases this
    | some b =>
      simp only [argText, intInfo, hs] at h
      have h1 := pyInt_intStr a
      rw [h, pyInt_intStr b] at h1
      simpa using h1.symm

/-- settings for the examples -/
def cfg0 : Cfg ℚ where
  skipNan := false
  npFloat := true
  workers := 1
  mapAxis := -1
  method := .moments
  kde _ := none
  sqrt x := x
  reps := 1
  conf := 19 / 20
  argsort n _ := List.range n
  rocCurve _ _ := .error .value
  crpsEns _ _ _ := .error .notImplemented
  rng _ _ _ _ := fun _ => 0

/-- integer thresholds -/
def embInt (i : Int) : Arg ℚ := .thr (.scalar (some i))

def detP : Prims (DetX ℚ) (PyVal ℚ) Int := detPrims cfg0 embInt

def ensP : Prims (EnsX ℚ) (PyVal ℚ) Int := ensPrims cfg0 embInt

/-- deletion in one step -/
def noMids {V : Type} : FS V → Path → List (FS V) := fun _ _ => []

theorem deletion_noMids {V : Type} : Deletion (noMids (V := V)) :=
  ⟨fun _ _ _ h => absurd h (by simp [noMids]), fun _ _ _ _ h => absurd h (by simp [noMids])⟩

/-- only the root -/
def emptyFS {V : Type} : FS V := fun p => if p = [] then some .dir else none

theorem wf_emptyFS {V : Type} : WellFormed (emptyFS (V := V)) :=
  ⟨rfl, fun q x h => absurd (if_neg (by simp)) h⟩

theorem noPickles_emptyFS {V : Type} : NoPickles (emptyFS (V := V)) := fun d n => if_neg (by simp [filePath])

def world0 {V : Type} : World V := startWorld emptyFS fun _ => 0

/-- a working directory -/
def dirW : Path := ["work".toList]

theorem plain_dirW : PlainDir dirW := by
  refine ⟨by decide, ?_⟩
  intro p hp e n he
  have hp' : p = dirW := by
    simp [ancestors, dirW] at hp
    simp [hp, dirW]
  rw [hp'] at he
  unfold filePath dirW at he
  have h2 := (List.append_inj' (s₁ := []) he rfl).2
  simp only [List.cons.injEq, and_true] at h2
  have h3 := congrArg List.length h2
  simp at h3
  have h4 : n = [] := List.eq_nil_of_length_eq_zero (by simpa using h3)
  rw [h4] at h2
  exact absurd h2 (by decide)

theorem settled_det {K A : Type} [Field K] [LinearOrder K] [FloorSemiring K] (c : Cfg K) (emb : A → Arg K) (x : DetX K) :
    Settled (detPrims c emb) x := fun _ _ _ _ => rfl

theorem settled_ens {K A : Type} [Field K] [LinearOrder K] [FloorSemiring K] (c : Cfg K) (emb : A → Arg K) (x : EnsX K) :
    Settled (ensPrims c emb) x := by
  intro x1 x2 h1 h2
  simp only [ensPrims] at h1 h2 ⊢
  split at h1
  · cases h1
  · rename_i a ha
    simp only [Prod.mk.injEq, true_and] at h1
    subst h1
    simp only [EnsX.ax] at h2
    change (x.collapse x.f a >>= fun fc => Except.ok { x with axis := some a, fc := some fc }) = _ at h2
    have hx2 : ∃ fc, x2 = { x with axis := some a, fc := some fc } := by
      cases hc : x.collapse x.f a with
      | error e => rw [hc] at h2; cases h2
      | ok fc => rw [hc] at h2; cases h2; exact ⟨fc, rfl⟩
    obtain ⟨fc, rfl⟩ := hx2
    have : validateEnsembleAxis x.f.shape x.o.shape (some a) = .ok a := by
      cases hax : x.axis with
      | some b =>
        rw [hax] at ha
        have : b = a := by
          simp only [validateEnsembleAxis, pure_bind] at ha
          split at ha
          · cases hp : popAt x.f.shape b with
            | error e => rw [hp] at ha; cases ha
            | ok r =>
              rw [hp] at ha
              change (if r = x.o.shape then Except.ok b else _) = _ at ha
              split at ha
              · cases ha; rfl
              · cases ha
          · cases ha
        rw [← this]
        rw [← this] at ha
        exact ha
      | none =>
        rw [hax] at ha
        simp only [validateEnsembleAxis] at ha ⊢
        cases hg : guessEnsembleAxis x.f.shape x.o.shape with
        | error e => rw [hg] at ha; cases ha
        | ok b =>
          rw [hg] at ha
          have hb : b = a := by
            change (if b = 0 ∨ b = -1 ∨ b = -(x.f.shape.length : Int) ∨ b = (x.f.shape.length : Int) - 1 then _ else _) = _ at ha
            split at ha
            · cases hp : popAt x.f.shape b with
              | error e => rw [hp] at ha; cases ha
              | ok r =>
                rw [hp] at ha
                change (if r = x.o.shape then Except.ok b else _) = _ at ha
                split at ha
                · cases ha; rfl
                · cases ha
            · cases ha
          subst hb
          exact ha
    simp only [this]

/-- shape and numbers of a result -/
def numOf : Except Err (Option (PyVal ℚ)) → Option (List Nat × List (Option ℚ))
  | .ok (some (.num a)) => some (a.shape, a.data)
  | _ => none

def errOf {α : Type} : Except Err α → Option Err
  | .error e => some e
  | _ => none

end Model
