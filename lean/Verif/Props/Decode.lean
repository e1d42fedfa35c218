import Verif.Lemmas.Decode

/-!
# C133: with `decode=True`, which numbers become which dates
-/

set_option linter.unusedSectionVars false

namespace Props
open Np NDArr Model Lemmas

variable {K : Type} [Field K] [LinearOrder K]

/-- the units of IO.py:86 are read as they say -/
def ReadsEpoch (parse : UnitReader K) : Prop := parse "seconds since 1970-01-01" = some (1, 0)

/-- the length of a unit of time in seconds -/
def Lasts (u : String) (len : K) : Prop :=
  (u = "days" ∧ len = 24 * 60 * 60) ∨ (u = "hours" ∧ len = 60 * 60) ∨ (u = "minutes" ∧ len = 60) ∨ (u = "seconds" ∧ len = 1) ∨
  (u = "milliseconds" ∧ len = 1 / 10 ^ 3) ∨ (u = "microseconds" ∧ len = 1 / 10 ^ 6) ∨ (u = "nanoseconds" ∧ len = 1 / 10 ^ 9)

section
variable {parse : UnitReader K} (hp : ReadsEpoch parse) {deltas : Bool} {ds : Block K} {r : Dataset (Decoded K)}
  (hn : ¬ Undecodable ds) (h : openDataset parse deltas true ds = .ok r)
include hp hn h

/-- Every time of the file becomes the date that many seconds after the beginning of 1970, element by element and
whatever units the file gives. -/
theorem C133_dates {k : String} (hk : k = "test_times" ∨ k = "search_times" ∨ k = "Times")
    {v : DVar (NDArr (Fl K))} {a : NDArr (Fl K)} (hv : ds.get? k = some v) (hc : hasChars v = false)
    (ha : v.data = .other a) :
    ∃ v', r.get? k = some v' ∧ v'.data = .other (.dates a) ∧ v'.units = none ∧
      (v'.dims = v.dims ∨ v'.dims = v.dims.map fun d => (if d.1 = "num_test_times" then "num_times" else d.1, d.2)) := by
  obtain ⟨d, hd, hr⟩ := openDataset_decoded hn h
  obtain ⟨w, hw, hdim, hdat, -⟩ := C69_data hn hd (k := k) (by rcases hk with rfl | rfl | rfl <;> decide) hv
  have hu := C68_units_partial hn hd (k := k) (by tauto) hw
  obtain ⟨v', h1, h2⟩ := (get_decodeCf hr k).2 w hw
  rw [cfVar_epoch hp deltas hu ((hdat hc).trans ha)] at h1
  cases h1
  refine ⟨_, h2, rfl, rfl, ?_⟩
  have hf : (v.dims.filter fun d => d.1 ≠ "num_chars") = v.dims := by
    rw [List.filter_eq_self]
    intro d hd
    unfold hasChars at hc
    rw [Bool.eq_false_iff, Ne, List.any_eq_true] at hc
    simpa using fun he => hc ⟨d, hd, by simpa using he⟩
  unfold NewDims at hdim
  rw [hf] at hdim
  exact hdim

/-- The coordinate of the time dimension holds the same dates. -/
theorem C133_coordinates {k s : String} (hks : (k, s) = ("num_test_times", "test_times") ∨ (k, s) = ("num_times", "Times"))
    {x : DVar (NDArr (Fl K))} {a : NDArr (Fl K)} (hx : ds.get? s = some x) (hc : hasChars x = false)
    (ha : x.data = .other a) {n : Nat} (hd : (k, n) ∈ x.dims) :
    ∃ k' c, (k' = k ∨ k' = "num_times") ∧ r.get? k' = some c ∧ c.data = .other (.dates a) := by
  obtain ⟨d, hdd, hr⟩ := openDataset_decoded hn h
  obtain ⟨k', c, x', hk', hcc, -, -, -, hval, -⟩ := C69_coordinates hn hdd (k := k) (s := s)
    (by rcases hks with e | e <;> rw [e] <;> decide) hx hd
  have hkk : k' = "num_test_times" ∨ k' = "num_times" := by
    rcases hks with e | e <;> cases e <;> rcases hk' with h | h <;> simp_all
  have hu := C68_units_partial hn hdd (k := k') (by tauto) hcc
  obtain ⟨v', h1, h2⟩ := (get_decodeCf hr k').2 c hcc
  rw [cfVar_epoch hp deltas hu ((hval hc).trans ha)] at h1
  cases h1
  exact ⟨k', _, by tauto, h2, rfl⟩

/-- The dates are those the file means exactly if its own units, on its own times, mean seconds since 1970. -/
theorem C133_meant_partial {k : String} (hk : k = "test_times" ∨ k = "search_times" ∨ k = "Times")
    {v : DVar (NDArr (Fl K))} {a : NDArr (Fl K)} (hv : ds.get? k = some v) (hc : hasChars v = false)
    (ha : v.data = .other a) {u : String} (_ : v.units = some u) {len org : K} (_ : parse u = some (len, org)) :
    ∃ v' b, r.get? k = some v' ∧ v'.data = .other (.dates b) ∧
      (b.data = (a.data.map fun x => x.map fun x => org + len * x) ↔ ∀ x, some x ∈ a.data → org + len * x = x) := by
  obtain ⟨v', h1, h2, -, -⟩ := C133_dates hp hn h hk hv hc ha
  refine ⟨v', a, h1, h2, ?_⟩
  constructor
  · intro he x hx
    have hm : ∀ (l : List (Fl K)), l = (l.map fun x => x.map fun x => org + len * x) → some x ∈ l →
        org + len * x = x := by
      intro l
      induction l with
      | nil => intro _ h; cases h
      | cons y l ih =>
        intro h1 h2
        simp only [List.map_cons, List.cons.injEq] at h1
        rcases List.mem_cons.1 h2 with rfl | h2
        · simpa using h1.1.symm
        · exact ih h1.2 h2
    exact hm _ he hx
  · intro hx
    symm
    conv_rhs => rw [← List.map_id a.data]
    refine List.map_congr_left fun y hy => ?_
    cases y with
    | none => rfl
    | some x => simp [hx x hy]

end

section
variable {parse : UnitReader K} {deltas : Bool} {ds : Block K} {r : Dataset (Decoded K)}
  (hn : ¬ Undecodable ds) (h : openDataset parse deltas true ds = .ok r)
include hn h

/-- A variable that is neither a time nor a coordinate and has units such as `'K'` or none at all keeps its numbers and
its units. -/
theorem C133_numbers {k : String} (hk : k ∉ coordNames) (ht : k ∉ ["test_times", "search_times", "Times"])
    {v : DVar (NDArr (Fl K))} {a : NDArr (Fl K)} (hv : ds.get? k = some v) (hc : hasChars v = false)
    (ha : v.data = .other a)
    (hu : ∀ u, v.units = some u → hasSince u = false ∧
      (deltas = true → u ∉ ["days", "hours", "minutes", "seconds", "milliseconds", "microseconds", "nanoseconds"])) :
    ∃ v', r.get? k = some v' ∧ v'.data = .other (.plain a) ∧ v'.units = v.units := by
  obtain ⟨d, hd, hr⟩ := openDataset_decoded hn h
  obtain ⟨w, hw, -, hdat, -⟩ := C69_data hn hd (k := k) hk hv
  have hwu := postOpen_units hn hd hk ht hv hc hw
  obtain ⟨v', h1, h2⟩ := (get_decodeCf hr k).2 w hw
  unfold cfVar at h1
  rw [(hdat hc).trans ha, hwu] at h1
  simp only at h1
  cases huu : v.units with
  | none =>
    rw [huu] at h1
    simp only [cfNumbers, Except.ok.injEq] at h1
    subst h1
    exact ⟨_, h2, rfl, rfl⟩
  | some u =>
    obtain ⟨hs, hl⟩ := hu u huu
    rw [huu] at h1
    simp only [cfNumbers, hs, Bool.false_eq_true, if_false] at h1
    cases deltas with
    | false =>
      simp only [Bool.false_eq_true, if_false, Except.ok.injEq] at h1
      subst h1
      exact ⟨_, h2, rfl, rfl⟩
    | true =>
      have hlk : (timeUnits : List (String × K)).lookup u = none := by
        rw [lookup_none_iff]
        simpa [timeUnits] using hl rfl
      simp only [if_true, hlk, Except.ok.injEq] at h1
      subst h1
      exact ⟨_, h2, rfl, rfl⟩

/-- A variable that is neither a time nor a coordinate and has units `'<unit> since <date>'` of its own becomes the dates
these units say. -/
theorem C133_own {k : String} (hk : k ∉ coordNames) (ht : k ∉ ["test_times", "search_times", "Times"])
    {v : DVar (NDArr (Fl K))} {a : NDArr (Fl K)} (hv : ds.get? k = some v) (hc : hasChars v = false)
    (ha : v.data = .other a) {u : String} (hu : v.units = some u) (hs : "since".toList <:+: u.toList) :
    ∃ len org v' b, parse u = some (len, org) ∧ r.get? k = some v' ∧ v'.data = .other (.dates b) ∧
      b.shape = a.shape ∧ b.data = a.data.map fun x => x.map fun x => org + len * x := by
  obtain ⟨d, hd, hr⟩ := openDataset_decoded hn h
  obtain ⟨w, hw, -, hdat, -⟩ := C69_data hn hd (k := k) hk hv
  have hwu := postOpen_units hn hd hk ht hv hc hw
  obtain ⟨v', h1, h2⟩ := (get_decodeCf hr k).2 w hw
  have hs' : hasSince u = true := by simpa [hasSince] using hs
  unfold cfVar at h1
  rw [(hdat hc).trans ha, hwu, hu] at h1
  simp only [cfNumbers, hs', if_true] at h1
  cases hpu : parse u with
  | none => rw [hpu] at h1; cases h1
  | some lo =>
    rw [hpu] at h1
    simp only [Except.ok.injEq] at h1
    subst h1
    exact ⟨lo.1, lo.2, _, _, rfl, h2, rfl, rfl, rfl⟩

/-- A variable that is neither a time nor a coordinate and whose units are a unit of time alone becomes durations in that
unit, where the version of xarray decodes these; elsewhere (`C133_numbers`) it keeps its numbers. -/
theorem C133_durations (hd : deltas = true) {k : String} (hk : k ∉ coordNames) (ht : k ∉ ["test_times", "search_times", "Times"])
    {v : DVar (NDArr (Fl K))} {a : NDArr (Fl K)} (hv : ds.get? k = some v) (hc : hasChars v = false)
    (ha : v.data = .other a) {u : String} (hu : v.units = some u) {len : K} (hl : Lasts u len) :
    ∃ v' b, r.get? k = some v' ∧ v'.data = .other (.spans b) ∧ v'.units = none ∧ b.shape = a.shape ∧
      b.data = a.data.map fun x => x.map fun x => len * x := by
  obtain ⟨d, hd', hr⟩ := openDataset_decoded hn h
  obtain ⟨w, hw, -, hdat, -⟩ := C69_data hn hd' (k := k) hk hv
  have hwu := postOpen_units hn hd' hk ht hv hc hw
  obtain ⟨v', h1, h2⟩ := (get_decodeCf hr k).2 w hw
  unfold cfVar at h1
  rw [(hdat hc).trans ha, hwu, hu] at h1
  have hlk : hasSince u = false ∧ (timeUnits : List (String × K)).lookup u = some len := by
    rcases hl with ⟨rfl, rfl⟩ | ⟨rfl, rfl⟩ | ⟨rfl, rfl⟩ | ⟨rfl, rfl⟩ | ⟨rfl, rfl⟩ | ⟨rfl, rfl⟩ | ⟨rfl, rfl⟩ <;>
      refine ⟨by decide, ?_⟩ <;> simp [timeUnits, List.lookup] <;> norm_num
  subst hd
  simp only [cfNumbers, hlk.1, hlk.2, Bool.false_eq_true, if_false, if_true, Except.ok.injEq] at h1
  subst h1
  exact ⟨_, _, h2, rfl, rfl, rfl, rfl⟩

/-- A variable of single characters along its last dimension, named otherwise than `num_chars`, becomes a variable of texts
without that dimension. -/
theorem C133_texts {k : String} (hk : k ∉ coordNames) (ht : k ∉ ["test_times", "search_times", "Times"])
    {v : DVar (NDArr (Fl K))} {m : List (List (List Char))} (hv : ds.get? k = some v) (hc : hasChars v = false)
    (ha : v.data = .chars m) : ∃ w v', postOpen ds = .ok w ∧ r.get? k = some v' ∧ v'.data = .names (m.map List.flatten) ∧
      v'.units = v.units ∧ ∃ x, w.get? k = some x ∧ v'.dims = x.dims.dropLast := by
  obtain ⟨d, hd', hr⟩ := openDataset_decoded hn h
  obtain ⟨w, hw, -, hdat, -⟩ := C69_data hn hd' (k := k) hk hv
  have hwu := postOpen_units hn hd' hk ht hv hc hw
  obtain ⟨v', h1, h2⟩ := (get_decodeCf hr k).2 w hw
  unfold cfVar at h1
  rw [(hdat hc).trans ha] at h1
  simp only at h1
  split_ifs at h1
  simp only [Except.ok.injEq] at h1
  subst h1
  exact ⟨d, _, hd', h2, rfl, hwu, w, hw, rfl⟩

end

/-- what `decode_cf` can read: units with `since` must be readable and belong to numbers -/
def Readable (parse : UnitReader K) (v : DVar (NDArr (Fl K))) : Prop :=
  ∀ u, v.units = some u → "since".toList <:+: u.toList → (∃ a, v.data = .other a) ∧ (parse u).isSome = true

theorem cfVar_ok_iff (parse : UnitReader K) (deltas : Bool) (v : DVar (NDArr (Fl K))) :
    (∃ v', cfVar parse deltas v = .ok v') ↔ Readable parse v := by
  obtain ⟨dims, units, data⟩ := v
  unfold cfVar Readable
  cases units with
  | none => cases data <;> simp [cfNumbers]
  | some u =>
    simp only [Option.some.injEq, forall_eq', Option.map_some]
    by_cases hs : "since".toList <:+: u.toList
    · have hs' : hasSince u = true := by simpa [hasSince] using hs
      cases data with
      | chars m => simpa [hs'] using hs
      | names l => simpa [hs'] using hs
      | other a =>
        cases hpu : parse u with
        | none => simpa [cfNumbers, hs', hpu] using hs
        | some p => simp [cfNumbers, hs', hpu]
    · have hs' : hasSince u = false := by simpa [hasSince] using hs
      cases data with
      | chars m => simpa [hs'] using hs
      | names l => simpa [hs'] using hs
      | other a =>
        simp only [cfNumbers, hs', hs, Bool.false_eq_true, if_false, IsEmpty.forall_iff, iff_true]
        cases deltas with
        | false => simp
        | true => cases hl : (timeUnits : List (String × K)).lookup u <;> simp

/-- Opening with `decode=True` succeeds exactly if opening with `decode=False` does and all units with `since` of the
result can be read. -/
theorem C133_succeeds {parse : UnitReader K} {deltas : Bool} {ds : Block K} (hn : ¬ Undecodable ds) :
    (∃ r, openDataset parse deltas true ds = .ok r) ↔
      ∃ d, postOpen ds = .ok d ∧ ∀ kv ∈ d.vars, Readable parse kv.2 := by
  have he : returnsEarly ds = false := by
    rw [Bool.eq_false_iff]
    exact fun he => hn ((returnsEarly_iff ds).1 he)
  unfold openDataset
  cases hd : postOpen ds with
  | error e => simp
  | ok d =>
    simp only [he, Bool.not_false, Bool.and_self, if_true, Except.ok.injEq, exists_eq_left']
    have key : ∀ l : List (String × DVar (NDArr (Fl K))),
        (∃ r, mapE (fun kv => (cfVar parse deltas kv.2).map fun v => (kv.1, v)) l = .ok r) ↔
          ∀ kv ∈ l, Readable parse kv.2 := by
      intro l
      induction l with
      | nil => simp [mapE]
      | cons kv l ih =>
        rw [List.forall_mem_cons, ← ih, ← cfVar_ok_iff parse deltas]
        constructor
        · rintro ⟨r, hr⟩
          rw [mapE_ok] at hr
          cases hr with
          | cons h1 h2 =>
            refine ⟨?_, _, mapE_ok.2 h2⟩
            cases hv : cfVar parse deltas kv.2 with
            | error e => rw [hv] at h1; cases h1
            | ok v => exact ⟨v, rfl⟩
        · rintro ⟨⟨v, hv⟩, r, hr⟩
          exact ⟨(kv.1, v) :: r, mapE_ok.2 (.cons (by rw [hv]; rfl) (mapE_ok.1 hr))⟩
    rw [← key d.vars]
    unfold decodeCf
    constructor
    · rintro ⟨r, hr⟩
      split at hr
      · cases hr
      · rename_i vars hv
        exact ⟨_, hv⟩
    · rintro ⟨vars, hv⟩
      rw [hv]
      exact ⟨_, rfl⟩

/-- Decoding changes neither the names of the variables, nor the coordinates, nor the dimensions of numbers. -/
theorem C133_frame {parse : UnitReader K} {deltas : Bool} {ds : Block K} {r p : Dataset (Decoded K)}
    (h : openDataset parse deltas true ds = .ok r) (hf : openDataset parse deltas false ds = .ok p) :
    r.coords = p.coords ∧ r.vars.map Prod.fst = p.vars.map Prod.fst ∧
      ∀ k v, p.get? k = some v → (∃ a, v.data = .other a) → ∃ v', r.get? k = some v' ∧ v'.dims = v.dims := by
  unfold openDataset at h hf
  cases hd : postOpen ds with
  | error e => rw [hd] at h; cases h
  | ok d =>
    rw [hd] at h hf
    simp only [Bool.false_and, Bool.false_eq_true, if_false, Except.ok.injEq, Bool.true_and] at h hf
    subst hf
    split_ifs at h with he
    · have hg := get_decodeCf h
      unfold decodeCf at h
      split at h
      · cases h
      · rename_i vars hv
        cases h
        refine ⟨rfl, ?_, ?_⟩
        · simp only [plainSet, List.map_map]
          have : ∀ (l : List (String × DVar (NDArr (Fl K)))) (r : List (String × DVar (Decoded K))),
              List.Forall₂ (fun a b => (cfVar parse deltas a.2).map (fun v => (a.1, v)) = .ok b) l r →
              r.map Prod.fst = l.map Prod.fst := by
            intro l r hl
            induction hl with
            | nil => rfl
            | @cons a b _ _ h1 _ ih =>
              simp only [List.map_cons, ih, List.cons.injEq, and_true]
              cases hc : cfVar parse deltas a.2 with
              | error e => rw [hc] at h1; cases h1
              | ok v =>
                rw [hc] at h1
                simp only [Except.map, Except.ok.injEq] at h1
                rw [← h1]
          rw [this _ _ (mapE_ok.1 hv)]
          rfl
        · rintro k v hk ⟨a, ha⟩
          unfold Dataset.get? plainSet at hk
          simp only at hk
          rw [lookup_map d.vars (fun _ v => plainVar v), Option.map_eq_some_iff] at hk
          obtain ⟨w, hw, rfl⟩ := hk
          obtain ⟨v', h1, h2⟩ := (hg k).2 w hw
          refine ⟨v', h2, ?_⟩
          unfold plainVar at ha
          unfold cfVar at h1
          cases hwd : w.data with
          | chars m => simp [hwd] at ha
          | names l => simp [hwd] at ha
          | other b =>
            simp only [hwd] at h1
            split at h1
            · cases h1
            · cases h1; rfl
    · simp only [Except.ok.injEq] at h
      subst h
      exact ⟨rfl, rfl, fun k v hk _ => ⟨v, hk, rfl⟩⟩

/-- With an undecodable variable of characters nothing is decoded: the times of the file stay numbers. -/
theorem C133_early {parse : UnitReader K} {deltas : Bool} {ds : Block K} (hu : Undecodable ds) :
    openDataset parse deltas true ds = openDataset parse deltas false ds := by
  unfold openDataset
  cases postOpen ds with
  | error e => rfl
  | ok d => simp [(returnsEarly_iff ds).2 hu]

/-- With `decode=False` nothing is decoded: the variables, in their order, and the coordinates are those of the
post-processed file, with the same dimensions, units and contents, be they numbers, names or characters. -/
theorem C133_plain {parse : UnitReader K} {deltas : Bool} {ds : Block K} {p : Dataset (Decoded K)}
    (h : openDataset parse deltas false ds = .ok p) :
    ∃ d, postOpen ds = .ok d ∧ p.coords = d.coords ∧
      List.Forall₂ (fun a b => b.1 = a.1 ∧ b.2.dims = a.2.dims ∧ b.2.units = a.2.units ∧
        (∀ x, a.2.data = .other x → b.2.data = .other (.plain x)) ∧ (∀ l, a.2.data = .names l → b.2.data = .names l) ∧
        ∀ m, a.2.data = .chars m → b.2.data = .chars m) d.vars p.vars := by
  unfold openDataset at h
  cases hd : postOpen ds with
  | error e => rw [hd] at h; cases h
  | ok d =>
    rw [hd] at h
    simp only [Bool.false_and, Bool.false_eq_true, if_false, Except.ok.injEq] at h
    subst h
    refine ⟨d, rfl, rfl, ?_⟩
    simp only [plainSet]
    rw [List.forall₂_map_right_iff, List.forall₂_same]
    intro a _
    refine ⟨rfl, rfl, rfl, ?_, ?_, ?_⟩ <;> (intro x hx; simp [plainVar, hx])

end Props
