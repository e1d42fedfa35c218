import Verif.Lemmas.Repr
import Verif.Spec.Repr

/-!
# The printed description shows the settings: C103
-/

namespace Props
open Np Spec Model Lemmas

def nameOf : Fin 5 → List Char
  | 0 => (chars! "VerifyDeterm")
  | 1 => (chars! "VerifyEnsemble")
  | 2 => (chars! "VerifyProbGaussian")
  | 3 => (chars! "VerifyProbGamma")
  | 4 => (chars! "VerifyProbGammaHurdle")

def code : ClsShown → Fin 5
  | .determ => 0
  | .ensemble _ _ => 1
  | .prob .gaussian _ _ _ _ => 2
  | .prob .gamma _ _ _ _ => 3
  | .prob .hurdle _ _ _ _ => 4

theorem nameOf_inj : ∀ a b, nameOf a = nameOf b → a = b := by decide

theorem className_code (c : ClsShown) : className c = nameOf (code c) := by
  cases c with
  | determ => rfl
  | ensemble ax f => rfl
  | prob k n m t r => cases k <;> rfl

theorem code_eq {c c' : ClsShown} (h : className c = className c') : code c = code c' := by
  rw [className_code, className_code] at h
  exact nameOf_inj _ _ h

theorem className_len {c c' : ClsShown} (h : className c = className c') {l l' : List (List Char)}
    (hl : clsLines c = .ok l) (hl' : clsLines c' = .ok l') : l.length = l'.length := by
  replace h := code_eq h
  cases c with
  | determ =>
    cases c' with
    | determ => rw [hl] at hl'; cases hl'; rfl
    | ensemble ax f => exact absurd (show (0 : Fin 5) = 1 from h) (by decide)
    | prob k n m t r => cases k <;> simp [code] at h
  | ensemble ax f =>
    cases c' with
    | determ => exact absurd (show (1 : Fin 5) = 0 from h) (by decide)
    | ensemble ax' f' =>
      cases f <;> cases f' <;> simp only [clsLines, reduceCtorEq, Except.ok.injEq] at hl hl'
      subst hl; subst hl'; rfl
    | prob k n m t r => cases k <;> simp [code] at h
  | prob k n m t r =>
    cases c' with
    | determ => cases k <;> simp [code] at h
    | ensemble ax f => cases k <;> simp [code] at h
    | prob k' n' m' t' r' =>
      simp only [clsLines, Except.ok.injEq] at hl hl'
      subst hl; subst hl'; rfl

theorem cls_inj {c c' : ClsShown} (h : className c = className c') {l : List (List Char)} (hl : clsLines c = .ok l)
    (hl' : clsLines c' = .ok l) : c = c' := by
  replace h := code_eq h
  cases c with
  | determ =>
    cases c' with
    | determ => rfl
    | ensemble ax f => exact absurd (show (0 : Fin 5) = 1 from h) (by decide)
    | prob k n m t r => cases k <;> simp [code] at h
  | ensemble ax f =>
    cases c' with
    | determ => exact absurd (show (1 : Fin 5) = 0 from h) (by decide)
    | ensemble ax' f' =>
      cases f <;> cases f' <;> simp only [clsLines, reduceCtorEq, Except.ok.injEq] at hl hl'
      subst hl
      simp only [List.cons.injEq, and_true] at hl'
      have e1 := intStr_inj (List.append_cancel_left hl'.1)
      have e2 := List.append_cancel_left hl'.2
      rw [e1, e2]
    | prob k n m t r => cases k <;> simp [code] at h
  | prob k n m t r =>
    cases c' with
    | determ => cases k <;> simp [code] at h
    | ensemble ax f => cases k <;> simp [code] at h
    | prob k' n' m' t' r' =>
      have hk : k = k' := by
        revert h; cases k <;> cases k' <;> simp [code]
      simp only [clsLines, Except.ok.injEq] at hl hl'
      subst hl
      simp only [List.cons.injEq, and_true] at hl'
      obtain ⟨h1, h2, h3, h4⟩ := hl'
      have e1 := optStr_inj (fun a b => intStr_inj) (fun x _ => intStr_ne_none x) (fun x _ => intStr_ne_none x)
        (List.append_cancel_left h1)
      have e2 := intStr_inj (List.append_cancel_left h2)
      have e3 := boolStr_inj (List.append_cancel_left h3)
      have e4 := boolStr_inj (List.append_cancel_left h4)
      rw [hk, e1, e2, e3, e4]

theorem no_newline_append {a b : List Char} (ha : a.contains '\n' = false) (hb : '\n' ∉ b) : '\n' ∉ a ++ b := by
  intro h
  rcases List.mem_append.1 h with h | h
  · rw [List.contains_iff_mem.2 h] at ha; cases ha
  · exact hb h

theorem optStr_clean {α : Type} {f : α → List Char} {a : Option α} (h : ∀ x, a = some x → '\n' ∉ f x) :
    '\n' ∉ optStr f a := by
  cases a with
  | none => exact (by decide : '\n' ∉ (chars! "None"))
  | some x => exact h x rfl

theorem boolStr_clean (b : Bool) : '\n' ∉ boolStr b := by revert b; decide

theorem lines_clean {s : Shown} (hs : Readable s) {extra : List (List Char)} (he : clsLines s.cls = .ok extra) :
    ∀ t ∈ titleLine s.cls :: (fLines s.f ++ (baseLines s ++ extra)), '\n' ∉ t := by
  have hint : ∀ i, '\n' ∉ intStr i := fun i h => (intStr_clean i _ h).2.2.1 rfl
  have htup : ∀ l, '\n' ∉ tupleStr l := fun l h => (tupleStr_clean l _ h).1 rfl
  have harr : ∀ l, '\n' ∉ arrayStr l := fun l h => (arrayStr_clean l _ h).1 rfl
  intro t ht
  rcases List.mem_cons.1 ht with rfl | ht
  · have hn : ∀ a, '\n' ∉ (chars! "=============== PyAnEn::") ++ nameOf a ++ (chars! " ===============") := by decide
    rw [titleLine, className_code]
    exact hn _
  · rcases List.mem_append.1 ht with ht | ht
    · cases hf : s.f with
      | array sh =>
        rw [hf] at ht
        rw [fLines, List.mem_singleton] at ht
        subst ht
        exact no_newline_append (by decide) (harr _)
      | dict items =>
        rw [hf] at ht
        rcases List.mem_cons.1 ht with rfl | ht
        · decide
        · obtain ⟨kv, hkv, rfl⟩ := List.mem_map.1 ht
          refine no_newline_append (by decide) fun h => ?_
          rcases List.mem_append.1 h with h | h
          · exact hs.keys items hf kv hkv h
          · rcases List.mem_cons.1 h with h | h
            · exact absurd h (by decide)
            · rcases List.mem_cons.1 h with h | h
              · exact absurd h (by decide)
              · exact harr _ h
    · rcases List.mem_append.1 ht with ht | ht
      · simp only [baseLines, List.mem_cons, List.not_mem_nil, or_false] at ht
        rcases ht with rfl | rfl | rfl | rfl | rfl
        · exact no_newline_append (by decide) (harr _)
        · exact no_newline_append (by decide) (optStr_clean fun x _ => htup x)
        · exact no_newline_append (by decide) (optStr_clean fun x _ => hint x)
        · exact no_newline_append (by decide) (optStr_clean fun x hx => (hs.dir x hx).1)
        · exact no_newline_append (by decide) (boolStr_clean _)
      · cases hc : s.cls with
        | determ => rw [hc] at he; cases he; cases ht
        | ensemble ax f =>
          cases f with
          | none => rw [hc] at he; cases he
          | some nm =>
            rw [hc] at he
            cases he
            simp only [List.mem_cons, List.not_mem_nil, or_false] at ht
            rcases ht with rfl | rfl
            · exact no_newline_append (by decide) (hint _)
            · exact no_newline_append (by decide) (hs.func ax nm hc)
        | prob k n m t r =>
          rw [hc] at he
          cases he
          simp only [List.mem_cons, List.not_mem_nil, or_false] at ht
          rcases ht with rfl | rfl | rfl | rfl
          · exact no_newline_append (by decide) (optStr_clean fun x _ => hint x)
          · exact no_newline_append (by decide) (hint _)
          · exact no_newline_append (by decide) (boolStr_clean _)
          · exact no_newline_append (by decide) (boolStr_clean _)

/-- **C103**: two verifiers that print the same text have the same class, shapes and settings: the working directory may
not be called `None`, and names may not contain line breaks. -/
theorem C103_shows {s s' : Shown} (hs : Readable s) (hs' : Readable s') {t : List Char} (h : reprText s = .ok t)
    (h' : reprText s' = .ok t) : s = s' := by
  unfold reprText at h h'
  cases he : clsLines s.cls with
  | error e => rw [he] at h; cases h
  | ok extra =>
    cases he' : clsLines s'.cls with
    | error e => rw [he'] at h'; cases h'
    | ok extra' =>
      rw [he] at h
      rw [he'] at h'
      simp only [bind, Except.bind, Except.ok.injEq] at h h'
      rw [← h'] at h
      have hl := intercalate_inj (lines_clean hs he) (lines_clean hs' he') (by simp) (by simp) h
      simp only [List.cons.injEq] at hl
      obtain ⟨ht, hl⟩ := hl
      have hcn : className s.cls = className s'.cls := by
        unfold titleLine at ht
        exact List.append_cancel_left (List.append_cancel_right ht)
      have hlen := className_len hcn he he'
      have h2 := List.append_inj' hl (by simp [baseLines, hlen])
      have h3 := List.append_inj' h2.2 hlen
      have hf := fLines_inj h2.1
      have hc := cls_inj hcn he (h3.2 ▸ he')
      have hb := h3.1
      simp only [baseLines, List.cons.injEq, and_true] at hb
      obtain ⟨b1, b2, b3, b4, b5⟩ := hb
      have g1 := arrayStr_inj (List.append_cancel_left b1)
      have g2 := optStr_inj (fun a b => tupleStr_inj) (fun x _ => tupleStr_ne_none x) (fun x _ => tupleStr_ne_none x)
        (List.append_cancel_left b2)
      have g3 := optStr_inj (fun a b => intStr_inj) (fun x _ => intStr_ne_none x) (fun x _ => intStr_ne_none x)
        (List.append_cancel_left b3)
      have g4 := optStr_inj (f := id) (fun a b => id) (fun x hx => (hs.dir x hx).2) (fun x hx => (hs'.dir x hx).2)
        (List.append_cancel_left b4)
      have g5 := boolStr_inj (List.append_cancel_left b5)
      obtain ⟨c, f, o, avg, boot, dir, sc⟩ := s
      obtain ⟨c', f', o', avg', boot', dir', sc'⟩ := s'
      simp only at hc hf g1 g2 g3 g4 g5
      rw [hc, hf, g1, g2, g3, g4, g5]

/-- **C103**: printing fails exactly for an ensemble verifier whose collapsing function has no name, with an
`AttributeError`. -/
theorem C103_raises (s : Shown) (e : Err) :
    reprText s = .error e ↔ e = .attribute ∧ ∃ ax, s.cls = .ensemble ax none := by
  unfold reprText
  cases hc : s.cls with
  | determ => simp [clsLines, bind, Except.bind]
  | ensemble ax f => cases f <;> simp [clsLines, bind, Except.bind, eq_comm]
  | prob k n m t r => simp [clsLines, bind, Except.bind]

/-- **C103**: a working directory called `None` is printed like no working directory, whatever the rest. -/
theorem C103_dir_none (s : Shown) :
    reprText { s with dir := some (chars! "None") } = reprText { s with dir := none } := rfl

/-- **C103**: line breaks have to be excluded: one with the key `"a: array (2,)\n  - b"` imitates two keys. -/
theorem C103_newline : ∃ s s' : Shown, s ≠ s' ∧ s.dir ≠ some (chars! "None") ∧ s'.dir ≠ some (chars! "None") ∧
    reprText s = reprText s' := by
  refine ⟨⟨.determ, .dict [((chars! "a"), [2]), ((chars! "b"), [3])], [2], none, none, none, true⟩,
    ⟨.determ, .dict [((chars! "a: array (2,)\n  - b"), [3])], [2], none, none, none, true⟩, by decide, by decide, by decide,
    by decide +kernel⟩

/-! ### concrete cases -/

/-- an ensemble verifier as it is printed -/
example : reprText ⟨.ensemble (-1) (some (chars! "mean")), .array [10, 4, 5], [10, 4], some [0], none, none, true⟩ =
    .ok (chars! "=============== PyAnEn::VerifyEnsemble ===============\nForecast (f): array (10, 4, 5)\n" ++
      chars! "Observations (o): array (10, 4)\nAverage/Sample axis (avg_axis): (0,)\nBootstrap samples (boot_samples): None\n" ++
      chars! "Save intermediate data at (working_directory): None\nIgnore saved intermediate data (start_from_scratch): True\n" ++
      chars! "Ensemble axis (ensemble_axis): -1\nEnsemble collapsing function (ensemble_collapse_func): mean") ∧
    Readable ⟨.ensemble (-1) (some (chars! "mean")), .array [10, 4, 5], [10, 4], some [0], none, none, true⟩ := by
  refine ⟨by decide +kernel, ⟨by simp, by simp, ?_⟩⟩
  intro ax nm h
  cases h
  decide

/-- a Gaussian verifier -/
example : reprText ⟨.prob .gaussian (some 15) (-1) false false, .dict [((chars! "mu"), [3]), ((chars! "sigma"), [3])], [3],
      none, some 300, some (chars! "/tmp/v"), false⟩ =
    .ok (chars! "=============== PyAnEn::VerifyProbGaussian ===============\nForecast (f):  dict\n  - mu: array (3,)\n" ++
      chars! "  - sigma: array (3,)\nObservations (o): array (3,)\nAverage/Sample axis (avg_axis): None\n" ++
      chars! "Bootstrap samples (boot_samples): 300\nSave intermediate data at (working_directory): /tmp/v\n" ++
      chars! "Ignore saved intermediate data (start_from_scratch): False\nEnsemble members to sample (n_sample_members): 15\n" ++
      chars! "Move generated ensemble axis to (move_sampled_ens_axis): -1\nTruncated (truncated): False\n" ++
      chars! "Randomize zero ranks (pit_randomize_zero_ranks): False") := by
  decide +kernel

end Props
