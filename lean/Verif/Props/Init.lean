import Verif.Model.Init
import Mathlib.Tactic.NormNum

/-!
# C57: default settings
-/

namespace Props
open Np Model

theorem applyDefaults_user (tab : List (String × DefVal)) (e : Env) (k : String) (v : List Char) (h : e k = some v) :
    applyDefaults tab e k = some v := by
  unfold applyDefaults
  induction tab generalizing e with
  | nil => exact h
  | cons kv tab ih =>
    rw [List.foldl_cons]
    apply ih
    cases hk : e kv.1 with
    | some _ => exact h
    | none =>
      simp only [Env.write]
      rw [if_neg (by rintro rfl; rw [hk] at h; cases h)]
      exact h

theorem applyDefaults_other (tab : List (String × DefVal)) (e : Env) (k : String) (h : ∀ v, (k, v) ∉ tab) :
    applyDefaults tab e k = e k := by
  unfold applyDefaults
  induction tab generalizing e with
  | nil => rfl
  | cons kv tab ih =>
    rw [List.foldl_cons, ih _ fun v hv => h v (by simp [hv])]
    cases hk : e kv.1 with
    | some _ => rfl
    | none =>
      simp only [Env.write]
      rw [if_neg]
      rintro rfl
      exact h kv.2 (by simp)

theorem applyDefaults_missing (tab : List (String × DefVal)) (hd : (tab.map Prod.fst).Nodup) (e : Env) (k : String)
    (v : DefVal) (hm : (k, v) ∈ tab) (h : e k = none) : applyDefaults tab e k = some v.str := by
  induction tab generalizing e with
  | nil => cases hm
  | cons kv tab ih =>
    obtain ⟨k', v'⟩ := kv
    rw [List.map_cons, List.nodup_cons] at hd
    rcases List.mem_cons.1 hm with he | hm'
    · simp only [Prod.mk.injEq] at he
      obtain ⟨rfl, rfl⟩ := he
      have : applyDefaults ((k, v) :: tab) e = applyDefaults tab (e.write k v.str) := by
        unfold applyDefaults
        rw [List.foldl_cons, h]
      rw [this]
      exact applyDefaults_user _ _ _ _ (by simp [Env.write])
    · have hne : k ≠ k' := by
        rintro rfl
        exact hd.1 (List.mem_map.2 ⟨(k, v), hm', rfl⟩)
      have : ∃ e', applyDefaults ((k', v') :: tab) e = applyDefaults tab e' ∧ e' k = none := by
        unfold applyDefaults
        rw [List.foldl_cons]
        cases hk : e k' with
        | some _ => exact ⟨e, rfl, h⟩
        | none => exact ⟨e.write k' v'.str, rfl, by simp only [Env.write]; rw [if_neg hne]; exact h⟩
      obtain ⟨e', h1, h2⟩ := this
      rw [h1]
      exact ih hd.2 e' hm' h2

theorem keys_nodup : (defaults.map Prod.fst).Nodup := by decide +kernel

/-- A variable the user has set keeps its value. -/
theorem C57_user (e : Env) (k : String) (v : List Char) (h : e k = some v) : importPackage e k = some v :=
  applyDefaults_user _ _ _ _ h

/-- Variables that are not settings of the package are not touched. -/
theorem C57_foreign (e : Env) (k : String) (h : ∀ v, (k, v) ∉ defaults) : importPackage e k = e k :=
  applyDefaults_other _ _ _ h

/-- Missing settings get their defaults. -/
theorem C57_missing (e : Env) (k : String) (v : DefVal) (hm : (k, v) ∈ defaults) (h : e k = none) :
    importPackage e k = some v.str :=
  applyDefaults_missing _ keys_nodup _ _ _ hm h

/-- Importing again (for instance in a worker process that inherits the environment) changes nothing. -/
theorem C57_idempotent (e : Env) : importPackage (importPackage e) = importPackage e := by
  funext k
  cases h : importPackage e k with
  | some v => exact C57_user _ _ _ h
  | none =>
    rw [C57_foreign _ _ ?_]
    · exact h
    · intro v hv
      cases he : e k with
      | some t => rw [C57_user _ _ _ he] at h; cases h
      | none => rw [C57_missing _ _ _ hv he] at h; cases h

/-- After the import no setting is missing: reading one never raises `KeyError`. -/
theorem C57_present (e : Env) (k : String) (v : DefVal) (hm : (k, v) ∈ defaults) :
    ∃ t, (importPackage e).read k = .ok t := by
  unfold Env.read
  cases he : e k with
  | some t => exact ⟨t, by rw [C57_user _ _ _ he]⟩
  | none => exact ⟨v.str, by rw [C57_missing _ _ _ hm he]⟩

/-- `print_settings()` never raises after the import, and lists every setting with its current value. -/
theorem C57_print (e : Env) : ∃ l, printSettings (importPackage e) = .ok l ∧
    l.map Prod.fst = defaults.map Prod.fst ∧ ∀ kv ∈ l, importPackage e kv.1 = some kv.2 := by
  unfold printSettings
  have : ∀ tab : List (String × DefVal), (∀ q ∈ tab, q ∈ defaults) →
      ∃ l, mapE (fun kv => match (importPackage e).read kv.1 with
        | .error er => .error er
        | .ok v => .ok (kv.1, v)) tab = .ok l ∧
      l.map Prod.fst = tab.map Prod.fst ∧ ∀ kv ∈ l, importPackage e kv.1 = some kv.2 := by
    intro tab
    induction tab with
    | nil => intro _; exact ⟨[], rfl, rfl, by simp⟩
    | cons q tab ih =>
      intro hq
      obtain ⟨l, h1, h2, h3⟩ := ih fun q' h' => hq q' (by simp [h'])
      obtain ⟨t, ht⟩ := C57_present e q.1 q.2 (hq q (by simp))
      refine ⟨(q.1, t) :: l, ?_, by simp [h2], ?_⟩
      · simp only [mapE, ht, h1]
      · intro kv hkv
        rcases List.mem_cons.1 hkv with rfl | hkv
        · unfold Env.read at ht
          split at ht
          · rename_i hv; cases ht; exact hv
          · cases ht
        · exact h3 kv hkv
  exact this defaults fun q hq => hq

/-- Every integer default is read back by `int()` as written, every boolean by `strtobool`. -/
theorem C57_parse (k : String) :
    (∀ i, (k, DefVal.int i) ∈ defaults → pyInt (DefVal.int i).str = .ok i) ∧
    (∀ b, (k, DefVal.bool b) ∈ defaults → strtobool (DefVal.bool b).str = .ok b.toNat) := by
  constructor
  · intro i _; exact pyInt_intStr i
  · intro b _; cases b <;> decide

/-- In an environment without any of the variables the settings are the documented ones. -/
theorem C57_documented (e : Env) (h : ∀ kv ∈ defaults, e kv.1 = none) :
    ((importPackage e).read "pyanen_ens_to_prob_method" = .ok "moments".toList) ∧
    ((importPackage e).read "pyanen_kde_kernel" = .ok "gaussian".toList) ∧
    ((importPackage e).read "pyanen_integrate_wdir" = .ok []) ∧
    ((importPackage e).read "pyanen_kde_bandwidth" >>= pyDecimal) = .ok (1 / 100) ∧
    ((importPackage e).read "pyanen_boot_confidence" >>= pyDecimal) = .ok (95 / 100) ∧
    ((importPackage e).read "pyanen_kde_samples" >>= pyInt) = .ok 1000 ∧
    ((importPackage e).read "pyanen_kde_multiply_spread" >>= pyInt) = .ok 5 ∧
    ((importPackage e).read "pyanen_boot_repeats" >>= pyInt) = .ok 1000 ∧
    ((importPackage e).read "pyanen_boot_samples" >>= pyInt) = .ok 300 ∧
    ((importPackage e).read "pyanen_tqdm_workers" >>= pyInt) = .ok 1 ∧
    ((importPackage e).read "pyanen_tqdm_map_axis" >>= pyInt) = .ok (-1) ∧
    ((importPackage e).read "pyanen_tqdm_chunksize" >>= pyInt) = .ok 1 ∧
    ((importPackage e).read "pyanen_integrate_range_multiplier" >>= pyInt) = .ok 5 ∧
    ((importPackage e).read "pyanen_tqdm_disable" >>= strtobool) = .ok 1 ∧
    ((importPackage e).read "pyanen_tqdm_leave" >>= strtobool) = .ok 0 ∧
    ((importPackage e).read "pyanen_use_tensorflow_math" >>= strtobool) = .ok 0 ∧
    ((importPackage e).read "pyanen_skip_nan" >>= strtobool) = .ok 0 ∧
    ((importPackage e).read "pyanen_split_crps_ensemble_along_0" >>= strtobool) = .ok 0 ∧
    ((importPackage e).read "pyanen_integrate_with_less_memory" >>= strtobool) = .ok 0 := by
  have key : ∀ k v, (k, v) ∈ defaults → (importPackage e).read k = .ok v.str := by
    intro k v hm
    unfold Env.read
    rw [C57_missing e k v hm (h (k, v) hm)]
  have hint : ∀ k i, (k, DefVal.int i) ∈ defaults → ((importPackage e).read k >>= pyInt) = .ok i := by
    intro k i hm
    rw [key k _ hm]
    exact pyInt_intStr i
  have hbool : ∀ k b, (k, DefVal.bool b) ∈ defaults → ((importPackage e).read k >>= strtobool) = .ok b.toNat := by
    intro k b hm
    rw [key k _ hm]
    cases b <;> decide
  refine ⟨key _ (.text "moments".toList) (by simp [defaults]), key _ (.text "gaussian".toList) (by simp [defaults]),
    key _ (.text []) (by simp [defaults]), ?_, ?_, hint _ _ (by simp [defaults]), hint _ _ (by simp [defaults]),
    hint _ _ (by simp [defaults]), hint _ _ (by simp [defaults]), hint _ _ (by simp [defaults]),
    hint _ _ (by simp [defaults]), hint _ _ (by simp [defaults]), hint _ _ (by simp [defaults]),
    hbool _ true (by simp [defaults]), hbool _ false (by simp [defaults]), hbool _ false (by simp [defaults]),
    hbool _ false (by simp [defaults]), hbool _ false (by simp [defaults]), hbool _ false (by simp [defaults])⟩
  · rw [key _ (.float "0.01".toList) (by simp [defaults])]
    change pyDecimal "0.01".toList = _
    decide +kernel
  · rw [key _ (.float "0.95".toList) (by simp [defaults])]
    change pyDecimal "0.95".toList = _
    decide +kernel

example : (∀ kv ∈ defaults, (fun _ => none : Env) kv.1 = none) ∧
    importPackage (fun k => if k = "pyanen_boot_samples" then some "50".toList else none) "pyanen_boot_samples" =
      some "50".toList := ⟨fun _ _ => rfl, C57_user _ _ _ (by decide)⟩

end Props
