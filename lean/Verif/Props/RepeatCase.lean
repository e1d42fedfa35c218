import Verif.Props.Repeat
import Verif.Props.EndToEndProbCase

/-!
# C126: a case
-/

namespace Props
open Np Model Spec

/-- something was returned -/
def returned {V : Type} (r : Except Err (Option V)) : Bool :=
  match r with
  | .ok (some _) => true
  | _ => false

theorem returned_step {X V A : Type} {C : Cls} {I : ArgInfo A} {P : Prims X V A} {mids : FS V → Path → List (FS V)}
    {r : Req A} {o : Obj X} {w : World V} (h : returned (step C I P mids (.metric r) o w).1 = true) :
    ∃ v w1, step C I P mids (.metric r) o w = (.ok (some v), o, w1) := by
  simp only [step] at h ⊢
  rcases hq : (metricProg C I P o.ext o.avg o.boot r).run o.wd w with ⟨r1, w1⟩
  rw [hq] at h
  cases r1 with
  | error e => simp [returned] at h
  | ok v => exact ⟨v, w1, rfl⟩

/-- a Gaussian verifier with sampled members that saves into a directory -/
def savingGauss : Obj (ProbX ℚ) := { probObj (gaussX false) with dir := .path dirW }

/-- the verifier and the world after its construction -/
theorem savingGauss_made : ∃ w : World (PyVal ℚ), construct (gaussPrims caseCfg fnsQ embInt) noMids savingGauss world0 =
    (.ok savingGauss, w) ∧ returned (step .gaussian intInfo (gaussPrims caseCfg fnsQ embInt) noMids
      (.metric (.slot .probToEns)) savingGauss w).1 = true ∧
    returned (step .gaussian intInfo (gaussPrims caseCfg fnsQ embInt) noMids (.metric (.slot .rankHist)) savingGauss
      (step .gaussian intInfo (gaussPrims caseCfg fnsQ embInt) noMids (.metric (.slot .probToEns)) savingGauss w).2.2).1 =
        true ∧
    ((step .gaussian intInfo (gaussPrims caseCfg fnsQ embInt) noMids (.metric (.slot .probToEns)) savingGauss w).2.2.fs
      (filePath dirW "rank".toList)).isNone = true :=
  ⟨_, rfl, by decide +kernel, by decide +kernel, by decide +kernel⟩

/-- The theorems apply: the members are drawn once, ranked by `rank_hist()`, and both calls can be repeated. -/
example : ∃ (w w1 w2 : World (PyVal ℚ)) (e v : PyVal ℚ),
    construct (gaussPrims caseCfg fnsQ embInt) noMids savingGauss world0 = (.ok savingGauss, w) ∧
    step .gaussian intInfo (gaussPrims caseCfg fnsQ embInt) noMids (.metric (.slot .probToEns)) savingGauss w =
      (.ok (some e), savingGauss, w1) ∧
    step .gaussian intInfo (gaussPrims caseCfg fnsQ embInt) noMids (.metric (.slot .rankHist)) savingGauss w1 =
      (.ok (some v), savingGauss, w2) ∧
    (gaussPrims caseCfg fnsQ embInt).rankOf savingGauss.ext e (w1.seed w1.pos) = .ok v ∧
    step .gaussian intInfo (gaussPrims caseCfg fnsQ embInt) noMids (.metric (.slot .rankHist)) savingGauss w2 =
      (.ok (some v), savingGauss, w2) ∧
    step .gaussian intInfo (gaussPrims caseCfg fnsQ embInt) noMids (.metric (.slot .probToEns)) savingGauss w2 =
      (.ok (some e), savingGauss, w2) := by
  obtain ⟨w, hc, h1, h2, h3⟩ := savingGauss_made
  obtain ⟨e, w1, he⟩ := returned_step h1
  rw [he] at h2 h3
  obtain ⟨v, w2, hv⟩ := returned_step h2
  have hd : savingGauss.dir = .path dirW := rfl
  refine ⟨w, w1, w2, e, v, hc, he, hv, ?_, ?_, ?_⟩
  · refine (C126_members (.inl rfl) hd he (After.refl _) (by decide +kernel)).1 v (by simpa using h3) ?_
    rw [hv]
  · exact C126_history hd rfl hv (After.refl _) (Or.inl rfl)
  · have ha : After w1 w2 := by
      have := (After.refl w1).call .gaussian intInfo (gaussPrims caseCfg fnsQ embInt) noMids (.slot .rankHist) savingGauss
      rw [hv] at this
      exact this
    exact C126_history hd rfl he ha (Or.inl rfl)

end Props
