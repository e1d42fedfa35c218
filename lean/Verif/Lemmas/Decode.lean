import Verif.Model.Decode
import Verif.Props.IO

/-!
# Decoding variable by variable
-/

set_option linter.unusedSectionVars false

namespace Lemmas
open Np NDArr Model Props

variable {K : Type} [Field K] [LinearOrder K]

theorem lookup_mapE {α β : Type} {f : α → Except Err β} {l : List (String × α)} {r : List (String × β)}
    (h : mapE (fun kv : String × α => (f kv.2).map fun v => (kv.1, v)) l = .ok r) (k : String) :
    (l.lookup k = none → r.lookup k = none) ∧
    ∀ v, l.lookup k = some v → ∃ v', f v = .ok v' ∧ r.lookup k = some v' := by
  induction l generalizing r with
  | nil =>
    simp only [mapE, Except.ok.injEq] at h
    subst h
    exact ⟨fun _ => rfl, fun v hv => by cases hv⟩
  | cons kv l ih =>
    obtain ⟨k0, v0⟩ := kv
    rw [mapE_ok] at h
    cases h with
    | cons h1 h2 =>
      rename_i b r'
      simp only at h1
      cases hf : f v0 with
      | error e => rw [hf] at h1; cases h1
      | ok w =>
        rw [hf] at h1
        simp only [Except.map, Except.ok.injEq] at h1
        subst h1
        have ih' := ih (mapE_ok.2 h2)
        by_cases hk : k = k0
        · subst hk
          simp only [List.lookup_cons_self]
          refine ⟨fun h => absurd h (by simp), fun v hv => ?_⟩
          simp only [Option.some.injEq] at hv
          subst hv
          exact ⟨w, hf, rfl⟩
        · have hb : (k == k0) = false := by simpa using hk
          simp only [List.lookup_cons, hb]
          exact ih'

theorem get_decodeCf {parse : UnitReader K} {deltas : Bool} {d : Block K} {r : Dataset (Decoded K)}
    (h : decodeCf parse deltas d = .ok r) (k : String) :
    (d.get? k = none → r.get? k = none) ∧
    ∀ v, d.get? k = some v → ∃ v', cfVar parse deltas v = .ok v' ∧ r.get? k = some v' := by
  unfold decodeCf at h
  split at h
  · cases h
  · rename_i vars hv
    cases h
    exact lookup_mapE (f := cfVar parse deltas) hv k

theorem returnsEarly_iff (ds : Block K) : returnsEarly ds = true ↔ Undecodable ds := by
  unfold returnsEarly
  rw [Bool.and_eq_true]
  constructor
  · rintro ⟨-, h⟩
    exact (decodeVars_flag _).1 h
  · intro hu
    refine ⟨?_, (decodeVars_flag _).2 hu⟩
    obtain ⟨kv, hkv, hc, -⟩ := hu
    unfold hasChars at hc
    rw [List.any_eq_true] at hc
    obtain ⟨⟨a, n⟩, h1, h2⟩ := hc
    simp only [decide_eq_true_eq] at h2
    subst h2
    exact (hasDim_iff _ _).2 ⟨kv, hkv, n, h1⟩

theorem openDataset_decoded {parse : UnitReader K} {deltas : Bool} {ds : Block K} {r : Dataset (Decoded K)}
    (hn : ¬ Undecodable ds) (h : openDataset parse deltas true ds = .ok r) :
    ∃ d, postOpen ds = .ok d ∧ decodeCf parse deltas d = .ok r := by
  unfold openDataset at h
  split at h
  · cases h
  · rename_i d hd
    have he : returnsEarly ds = false := by
      rw [Bool.eq_false_iff]
      exact fun he => hn ((returnsEarly_iff ds).1 he)
    rw [he] at h
    exact ⟨d, hd, h⟩

/-- a variable without characters that is neither a time nor a coordinate keeps its units -/
theorem postOpen_units {D : Type} {ds ds' : Dataset D} (hn : ¬ Undecodable ds) (h : postOpen ds = .ok ds') {k : String}
    (hk : k ∉ coordNames) (ht : k ∉ ["test_times", "search_times", "Times"]) {v : DVar D} (hv : ds.get? k = some v)
    (hc : hasChars v = false) {v' : DVar D} (hv' : ds'.get? k = some v') : v'.units = v.units := by
  have hkt : k ∉ timeVars := by
    simp only [coordNames, timeVars, List.mem_cons, List.not_mem_nil, or_false, not_or] at hk ht ⊢
    tauto
  have hdv : decodeVar v = v := by simp [decodeVar, hc]
  have hdec : (⟨ds.vars.map fun kv => (kv.1, decodeVar kv.2), ds.coords⟩ : Dataset D).get? k = some v := by
    unfold Dataset.get? at hv ⊢
    rw [lookup_map ds.vars (fun _ v => decodeVar v), hv]
    simp [hdv]
  obtain ⟨d1, h1, h2⟩ := postOpen_cases hn h
  have hg1 : d1.get? k = some v := by
    rw [coordLoop_other h1 (by simpa [coordsDict, coordNames] using hk), hdec]
  have hg2 : (⟨unitLoop d1.vars, d1.coords⟩ : Dataset D).get? k = some v := by
    unfold Dataset.get? at hg1 ⊢
    rw [lookup_unitLoop, hg1]
    simp [hkt]
  simp only [coordNames, List.mem_cons, List.not_mem_nil, or_false, not_or] at hk
  rcases h2 with ⟨rfl, -⟩ | hr
  · rw [hg2] at hv'
    cases hv'
    rfl
  · rw [get_rename hr, if_neg hk.2.2.2.2, if_neg hk.2.2.1, hg2] at hv'
    simp only [Option.map_some, Option.some.injEq] at hv'
    subst hv'
    rfl

theorem map_epoch (a : NDArr (Fl K)) : (a.map fun x => x.map fun x => (0 : K) + 1 * x) = a := by
  refine NDArr.ext' rfl ?_
  simp [NDArr.map]

theorem cfVar_epoch {parse : UnitReader K} (hp : parse "seconds since 1970-01-01" = some (1, 0)) (deltas : Bool)
    {v : DVar (NDArr (Fl K))} {a : NDArr (Fl K)} (hu : v.units = some "seconds since 1970-01-01")
    (hd : v.data = .other a) : cfVar parse deltas v = .ok ⟨v.dims, none, .other (.dates a)⟩ := by
  have hs : hasSince "seconds since 1970-01-01" = true := by decide +kernel
  unfold cfVar
  rw [hd, hu]
  simp only [cfNumbers, hs, if_true, hp, map_epoch]

end Lemmas
