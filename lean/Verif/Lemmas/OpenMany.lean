import Verif.Model.OpenMany
import Verif.Spec.Stations
import Verif.Lemmas.IO
import Verif.Lemmas.Pool
import Mathlib.Data.List.GetD

set_option linter.unusedSectionVars false

namespace Lemmas
open Np NDArr Model Spec

variable {K : Type} [Field K] [LinearOrder K]

section
variable {α : Type} [Inhabited α]

theorem concatGet_block (ax : Nat) : ∀ (before : List (NDArr α)) (b : NDArr α) (after : List (NDArr α)) (i : List Nat),
    ax < i.length → i.getD ax 0 < b.shape.getD ax 0 →
    concatGet ax (before ++ b :: after) (i.set ax (lengthAlong ax before + i.getD ax 0)) = b.get i := by
  intro before
  induction before with
  | nil =>
    intro b after i h1 h2
    simp only [List.nil_append, concatGet, lengthAlong, List.map_nil, List.sum_nil, Nat.zero_add]
    rw [getD_set_self h1, if_pos h2]
    congr 1
    rw [List.getD_eq_getElem _ _ h1, List.set_getElem_self]
  | cons c before ih =>
    intro b after i h1 h2
    simp only [List.cons_append, concatGet]
    have hc : lengthAlong ax (c :: before) = c.shape.getD ax 0 + lengthAlong ax before := by
      simp [lengthAlong]
    rw [getD_set_self h1, if_neg (by omega), List.set_set]
    have : lengthAlong ax (c :: before) + i.getD ax 0 - c.shape.getD ax 0 = lengthAlong ax before + i.getD ax 0 := by
      omega
    rw [this]
    exact ih b after i h1 h2

theorem concat_sideBySide {ax : Nat} {blocks : List (NDArr α)} (hne : blocks ≠ [])
    (hax : ∀ b ∈ blocks, ax < b.shape.length)
    (hsame : ∀ b ∈ blocks, ∀ c ∈ blocks, b.shape.set ax 0 = c.shape.set ax 0) :
    ∃ a, concat ax blocks = .ok a ∧ SideBySide ax blocks a := by
  cases blocks with
  | nil => exact absurd rfl hne
  | cons c cs =>
    have hshape : ∀ b ∈ c :: cs, c.shape.set ax (lengthAlong ax (c :: cs)) = b.shape.set ax (lengthAlong ax (c :: cs)) := by
      intro b hb
      have := congrArg (fun l => List.set l ax (lengthAlong ax (c :: cs))) (hsame c (by simp) b hb)
      simpa [List.set_set] using this
    refine ⟨ofFn (c.shape.set ax (lengthAlong ax (c :: cs))) (concatGet ax (c :: cs)), ?_, hshape, ?_⟩
    · unfold concat
      simp only
      rw [if_pos ⟨fun d hd => hsame d (by simp [hd]) c (by simp), hax c (by simp)⟩]
      rfl
    · intro before b after hb i hi
      have hbm : b ∈ c :: cs := by rw [hb]; simp
      have hl : i.length = b.shape.length := hi.length
      have hlt : i.getD ax 0 < b.shape.getD ax 0 := getD_lt_of_inB hi (hax b hbm)
      rw [get_ofFn]
      · rw [hb]
        exact concatGet_block ax before b after i (by rw [hl]; exact hax b hbm) hlt
      · rw [hshape b hbm]
        refine inB_set hi ?_
        have : lengthAlong ax (c :: cs) = lengthAlong ax before + (b.shape.getD ax 0 + lengthAlong ax after) := by
          rw [hb]; simp [lengthAlong]
        omega

theorem sideBySide_one (ax : Nat) (a : NDArr α) (hax : ax < a.shape.length) : SideBySide ax [a] a := by
  refine ⟨fun b hb => ?_, ?_⟩
  · rw [List.mem_singleton] at hb
    subst hb
    have : lengthAlong ax [b] = b.shape.getD ax 0 := by simp [lengthAlong]
    rw [this, List.getD_eq_getElem _ _ hax, List.set_getElem_self]
  · intro before b after hb i hi
    cases before with
    | cons c cs => simp at hb
    | nil =>
      simp only [List.nil_append, List.cons.injEq] at hb
      obtain ⟨rfl, -⟩ := hb
      have hl : ax < i.length := by rw [hi.length]; exact hax
      simp only [lengthAlong, List.map_nil, List.sum_nil, Nat.zero_add]
      congr 1
      rw [List.getD_eq_getElem _ _ hl, List.set_getElem_self]

end

/-! ### lists of variables -/

theorem lookup_forall₂ {β γ : Type} {l : List (String × β)} {r : List (String × γ)} {Q : String → β → γ → Prop}
    (h : List.Forall₂ (fun a b => b.1 = a.1 ∧ Q a.1 a.2 b.2) l r) {k : String} {v : β} (hv : l.lookup k = some v) :
    ∃ w, r.lookup k = some w ∧ Q k v w := by
  induction h with
  | nil => cases hv
  | @cons a b l r hab _ ih =>
    obtain ⟨a1, a2⟩ := a
    obtain ⟨b1, b2⟩ := b
    obtain ⟨rfl, hq⟩ := hab
    rw [List.lookup_cons] at hv ⊢
    by_cases hk : k = b1
    · subst hk
      simp only [BEq.rfl, Option.some.injEq] at hv ⊢
      subst hv
      exact ⟨b2, rfl, hq⟩
    · have : (k == b1) = false := by simp [hk]
      simp only [this] at hv ⊢
      exact ih hv

theorem mapE_forall₂ {α β : Type} {f : α → Except Err β} {Q : α → β → Prop} {l : List α}
    (h : ∀ a ∈ l, ∃ b, f a = .ok b ∧ Q a b) : ∃ r, mapE f l = .ok r ∧ List.Forall₂ Q l r := by
  induction l with
  | nil => exact ⟨[], rfl, .nil⟩
  | cons a l ih =>
    obtain ⟨b, h1, h2⟩ := h a (by simp)
    obtain ⟨r, h3, h4⟩ := ih fun x hx => h x (by simp [hx])
    exact ⟨b :: r, by simp only [mapE, h1, h3], .cons h2 h4⟩

theorem mem_of_lookup {β : Type} {l : List (String × β)} {k : String} {v : β} (h : l.lookup k = some v) : (k, v) ∈ l := by
  induction l with
  | nil => cases h
  | cons a l ih =>
    obtain ⟨b, w⟩ := a
    rw [List.lookup_cons] at h
    by_cases hb : k = b
    · subst hb
      simp only [BEq.rfl, Option.some.injEq] at h
      subst h
      simp
    · have : (k == b) = false := by simp [hb]
      rw [this] at h
      exact List.mem_cons_of_mem _ (ih h)

theorem lookup_of_mem {β : Type} {l : List (String × β)} (hn : (l.map Prod.fst).Nodup) {k : String} {v : β}
    (h : (k, v) ∈ l) : l.lookup k = some v := by
  induction l with
  | nil => cases h
  | cons a l ih =>
    obtain ⟨b, w⟩ := a
    rw [List.map_cons, List.nodup_cons] at hn
    rw [List.lookup_cons]
    rcases List.mem_cons.1 h with e | e
    · cases e; simp
    · have hb : k ≠ b := by rintro rfl; exact hn.1 (List.mem_map.2 ⟨_, e, rfl⟩)
      have : (k == b) = false := by simp [hb]
      rw [this]
      exact ih hn.2 e

end Lemmas

namespace Lemmas
open Np NDArr Model Spec

variable {K : Type} [Field K] [LinearOrder K] {D : Type}

theorem hasStations_iff (v : DVar D) : hasStations v = true ↔ PerStation v := by
  unfold hasStations PerStation
  rw [List.any_eq_true, List.mem_map]
  constructor
  · rintro ⟨x, h1, h2⟩; exact ⟨x, h1, by simpa using h2⟩
  · rintro ⟨x, h1, h2⟩; exact ⟨x, h1, by simpa using h2⟩

theorem stationAxis_idxOf (v : DVar D) : stationAxis v = stationDim v := by
  unfold stationAxis stationDim
  rw [List.idxOf, List.findIdx_map]
  congr 1

theorem stationAxis_lt {v : DVar D} (h : PerStation v) : stationAxis v < v.dims.length := by
  unfold stationAxis
  rw [List.findIdx_lt_length]
  obtain ⟨x, h1, h2⟩ := List.mem_map.1 h
  exact ⟨x, h1, by simpa using h2⟩

theorem stationAxis_layout {v v' : DVar D} (h : layout v = layout v') : stationAxis v = stationAxis v' := by
  have : ∀ w : DVar D, stationAxis w = (layout w).findIdx fun d => d.1 = "num_stations" := by
    intro w
    unfold stationAxis layout
    rw [List.findIdx_map]
    rfl
  rw [this, this, h]

theorem perStation_layout {v v' : DVar D} (h : layout v = layout v') : PerStation v ↔ PerStation v' := by
  have : ∀ w : DVar D, (layout w).map Prod.fst = w.dims.map Prod.fst := by
    intro w
    unfold layout
    rw [List.map_map]
    rfl
  unfold PerStation
  rw [← this, ← this, h]

/-- the sizes of a variable apart from the station axis -/
theorem layout_sizes {v : DVar D} (hp : PerStation v) (hd : (v.dims.map Prod.fst).Nodup) :
    (v.dims.map Prod.snd).set (stationAxis v) 0 = (layout v).map Prod.snd := by
  have hlt := stationAxis_lt hp
  have hx : (v.dims[stationAxis v]).1 = "num_stations" := by
    have := List.findIdx_getElem (xs := v.dims) (p := fun d : String × Nat => d.1 = "num_stations") (w := hlt)
    exact of_decide_eq_true this
  unfold layout
  rw [List.map_map]
  apply List.ext_getElem
  · simp
  · intro i h1 h2
    rw [List.getElem_set]
    simp only [List.getElem_map, Function.comp_apply]
    have hi : i < v.dims.length := by simpa using h2
    by_cases hi' : stationAxis v = i
    · subst hi'
      simp [hx]
    · rw [if_neg hi', if_neg]
      intro e
      apply hi'
      have e2 : (v.dims.map Prod.fst)[stationAxis v]'(by simpa using hlt) = (v.dims.map Prod.fst)[i]'(by simpa using hi) := by
        simp [hx, e]
      exact (hd.getElem_inj_iff).1 e2

theorem size_lookup {n : Nat} {l : List (String × Nat)} {k : String} (h1 : ∀ x ∈ l, x.1 = k → x.2 = n)
    (h2 : ∃ x ∈ l, x.1 = k) : l.lookup k = some n := by
  induction l with
  | nil => obtain ⟨x, h, -⟩ := h2; cases h
  | cons a l ih =>
    obtain ⟨b, m⟩ := a
    rw [List.lookup_cons]
    by_cases hb : k = b
    · subst hb
      have := h1 (k, m) (by simp) rfl
      simp only at this
      simp [this]
    · have : (k == b) = false := by simp [hb]
      rw [this]
      refine ih (fun x hx => h1 x (by simp [hx])) ?_
      obtain ⟨x, hx, hk⟩ := h2
      rcases List.mem_cons.1 hx with e | e
      · subst e; exact absurd hk.symm hb
      · exact ⟨x, e, hk⟩

omit [Field K] [LinearOrder K] in
theorem RunFile_size {n : Nat} {d : Block K} (h : RunFile n d) : d.size? "num_stations" = some n := by
  unfold Dataset.size?
  refine size_lookup (fun x hx hk => ?_) ?_
  · obtain ⟨kv, h1, h2⟩ := List.mem_flatMap.1 hx
    exact h.size kv h1 x h2 hk
  · obtain ⟨kv, h1, h2⟩ := h.stations
    obtain ⟨x, h3, h4⟩ := List.mem_map.1 h2
    exact ⟨x, List.mem_flatMap.2 ⟨kv, h1, h3⟩, h4⟩

omit [Field K] [LinearOrder K] in
/-- the length of an array per station along its station axis -/
theorem RunFile_width {n : Nat} {d : Block K} (h : RunFile n d) {k : String} {v : DVar (NDArr (Fl K))}
    (hv : d.get? k = some v) (hp : PerStation v) {a : NDArr (Fl K)} (ha : v.data = .other a) :
    stationAxis v < a.shape.length ∧ a.shape.getD (stationAxis v) 0 = n := by
  have hm := mem_of_lookup hv
  have hs := h.shape _ hm a ha
  have hlt := stationAxis_lt hp
  have hl : stationAxis v < a.shape.length := by rw [hs]; simpa using hlt
  refine ⟨hl, ?_⟩
  rw [List.getD_eq_getElem _ _ hl]
  have e : a.shape[stationAxis v] = (v.dims[stationAxis v]).2 := by
    have : ∀ (s t : List Nat) (e : s = t) (i : Nat) (h1 : i < s.length), s[i] = t[i]'(by rw [← e]; exact h1) := by
      intro s t e i h1; subst e; rfl
    rw [this _ _ hs _ hl]
    simp
  rw [e]
  refine h.size _ hm _ (List.getElem_mem _) ?_
  have := List.findIdx_getElem (xs := v.dims) (p := fun d : String × Nat => d.1 = "num_stations") (w := hlt)
  exact of_decide_eq_true this

/-- what the concatenation of the files of a run holds -/
theorem concatStations_spec {d0 : Block K} {ds : List (Block K)} {n : Block K → Nat}
    (hr : ∀ d ∈ d0 :: ds, RunFile (n d) d) (hs : ∀ d ∈ d0 :: ds, SameLayout d0 d) :
    ∃ r, concatStations (d0 :: ds) = .ok r ∧ r.coords = d0.coords ∧ r.vars.map Prod.fst = d0.vars.map Prod.fst ∧
      ∀ k v, d0.get? k = some v → ∃ w, r.get? k = some w ∧ Joined (d0 :: ds) ((d0 :: ds).map n).sum k v w := by
  have hper : ∀ kv ∈ d0.vars, ∃ y : String × DVar (NDArr (Fl K)),
      (if hasStations kv.2 then (do
        let vs ← mapE (varOf kv.1) (d0 :: ds)
        let c ← catData (stationAxis kv.2) (vs.map DVar.data)
        let total := ((d0 :: ds).map fun d => (d.size? "num_stations").getD 0).sum
        pure (kv.1, { kv.2 with dims := kv.2.dims.map (fun d => if d.1 = "num_stations" then (d.1, total) else d), data := c }))
      else pure kv : Except Err (String × DVar (NDArr (Fl K)))) = .ok y ∧ y.1 = kv.1 ∧
      Joined (d0 :: ds) ((d0 :: ds).map n).sum kv.1 kv.2 y.2 := by
    rintro ⟨k, v⟩ hkv
    have hv : d0.get? k = some v := lookup_of_mem (hr d0 (by simp)).names hkv
    by_cases hp : PerStation v
    · rw [if_pos ((hasStations_iff v).2 hp)]
      have hlook : ∀ d ∈ d0 :: ds, ∃ w, d.get? k = some w ∧ layout w = layout v ∧
          ((∃ a, v.data = .other a) ↔ ∃ a, w.data = .other a) := fun d hd => hs d hd k v hv hp
      obtain ⟨vs, hvs, hF⟩ := mapE_forall₂ (f := varOf k)
        (Q := fun d w => d.get? k = some w ∧ layout w = layout v ∧
          ((∃ a, v.data = .other a) ↔ ∃ a, w.data = .other a)) (l := d0 :: ds) (by
          intro d hd
          obtain ⟨w, h1, h2⟩ := hlook d hd
          exact ⟨w, by simp only [varOf, h1], h1, h2⟩)
      have htot : ((d0 :: ds).map fun d => (d.size? "num_stations").getD 0) = (d0 :: ds).map n := by
        apply List.map_congr_left
        intro d hd
        rw [RunFile_size (hr d hd)]
        rfl
      have hlay : ∀ (t : Nat) (c : VData (NDArr (Fl K))), layout ({ v with
          dims := v.dims.map (fun d => if d.1 = "num_stations" then (d.1, t) else d), data := c } :
            DVar (NDArr (Fl K))) = layout v := by
        intro t c
        unfold layout
        rw [List.map_map]
        apply List.map_congr_left
        intro x _
        simp only [Function.comp_apply]
        by_cases hx : x.1 = "num_stations" <;> simp [hx]
      have hmem : ∀ t : Nat, ("num_stations", t) ∈ v.dims.map (fun d => if d.1 = "num_stations" then (d.1, t) else d) := by
        intro t
        obtain ⟨x, h1, h2⟩ := List.mem_map.1 hp
        exact List.mem_map.2 ⟨x, h1, by rw [if_pos h2, h2]⟩
      rcases (hr d0 (by simp)).kinds (k, v) hkv hp with ⟨a, ha⟩ | ⟨m, c, hm, hc⟩
      · -- numbers
        obtain ⟨blocks, hb⟩ : ∃ blocks : List (NDArr (Fl K)), vs.map DVar.data = blocks.map VData.other := by
          clear hvs htot hlook
          generalize d0 :: ds = l at hF
          induction hF with
          | nil => exact ⟨[], rfl⟩
          | cons h1 _ ih =>
            obtain ⟨b, hb⟩ := h1.2.2.1 ⟨a, ha⟩
            obtain ⟨bs, hbs⟩ := ih
            exact ⟨b :: bs, by simp [hb, hbs]⟩
        have hmap : (d0 :: ds).map (fun d => (d.get? k).map DVar.data) = blocks.map (fun b => some (.other b)) := by
          have : (d0 :: ds).map (fun d => (d.get? k).map DVar.data) = (vs.map DVar.data).map some := by
            clear hvs hb htot hlook
            generalize d0 :: ds = l at hF
            induction hF with
            | nil => rfl
            | cons h1 _ ih => simp only [List.map_cons, h1.1, ih, Option.map_some]
          rw [this, hb, List.map_map]
          rfl
        have hblk : ∀ b ∈ blocks, ∃ d ∈ d0 :: ds, ∃ w, d.get? k = some w ∧ layout w = layout v ∧ w.data = .other b := by
          intro b hbm
          have : some (VData.other b) ∈ (d0 :: ds).map (fun d => (d.get? k).map DVar.data) := by
            rw [hmap]; exact List.mem_map.2 ⟨b, hbm, rfl⟩
          obtain ⟨d, hd, he⟩ := List.mem_map.1 this
          obtain ⟨w, h1, h2, -⟩ := hlook d hd
          rw [h1] at he
          simp only [Option.map_some, Option.some.injEq] at he
          exact ⟨d, hd, w, h1, h2, he⟩
        have hax : ∀ b ∈ blocks, stationAxis v < b.shape.length := by
          intro b hbm
          obtain ⟨d, hd, w, h1, h2, h3⟩ := hblk b hbm
          rw [← stationAxis_layout h2]
          exact (RunFile_width (hr d hd) h1 ((perStation_layout h2).2 hp) h3).1
        have hsz : ∀ b ∈ blocks, b.shape.set (stationAxis v) 0 = (layout v).map Prod.snd := by
          intro b hbm
          obtain ⟨d, hd, w, h1, h2, h3⟩ := hblk b hbm
          have hm := mem_of_lookup h1
          rw [(hr d hd).shape _ hm b h3, ← stationAxis_layout h2,
            layout_sizes ((perStation_layout h2).2 hp) ((hr d hd).dims _ hm), h2]
        have hne : blocks ≠ [] := by
          rintro rfl
          simp at hmap
        obtain ⟨a', ha', hside⟩ := concat_sideBySide hne hax fun b h c h' => (hsz b h).trans (hsz c h').symm
        have hcat : catData (stationAxis v) (vs.map DVar.data) = .ok (.other a') := by
          rw [hb]
          cases blocks with
          | nil => exact absurd rfl hne
          | cons b bs =>
            have hme : mapE numbersOf ((b :: bs).map VData.other) = .ok (b :: bs) := by
              rw [mapE_map]
              simp only [numbersOf]
              rw [mapE_pure (fun a : NDArr (Fl K) => a) (b :: bs), List.map_id']
            rw [List.map_cons] at hme ⊢
            simp only [catData, hme, bind, Except.bind, ha']
            rfl
        refine ⟨(k, { v with dims := v.dims.map (fun d => if d.1 = "num_stations" then (d.1,
            ((d0 :: ds).map fun d => (d.size? "num_stations").getD 0).sum) else d), data := .other a' }),
          by simp only [hvs, hcat, bind, Except.bind]; rfl, rfl, fun h => absurd hp h, fun _ =>
          ⟨hlay _ _, rfl, by rw [htot]; exact hmem _, ?_, ?_⟩⟩
        · intro a2 _
          exact ⟨a', blocks, rfl, hmap, stationAxis_idxOf v ▸ hside⟩
        · intro m hm
          simp only at hm
          rw [ha] at hm
          cases hm
      · -- characters
        have hnot : ¬ ∃ a, v.data = .other a := by
          rintro ⟨a, h⟩
          simp only at hm
          rw [hm] at h; cases h
        obtain ⟨ms, hb⟩ : ∃ ms : List (List (List (List Char))), vs.map DVar.data = ms.map VData.chars := by
          have hall : ∀ d ∈ d0 :: ds, ∀ w, d.get? k = some w → layout w = layout v →
              (¬ ∃ a, w.data = .other a) → ∃ m, w.data = .chars m := by
            intro d hd w h1 h2 h3
            rcases (hr d hd).kinds _ (mem_of_lookup h1) ((perStation_layout h2).2 hp) with h4 | ⟨m, -, h4, -⟩
            · exact absurd h4 h3
            · exact ⟨m, h4⟩
          clear hvs htot hlook
          generalize d0 :: ds = l at hF hall
          induction hF with
          | nil => exact ⟨[], rfl⟩
          | cons h1 _ ih =>
            obtain ⟨b, hb⟩ := hall _ (by simp) _ h1.1 h1.2.1 (fun h => hnot (h1.2.2.2 h))
            obtain ⟨bs, hbs⟩ := ih fun d hd => hall d (by simp [hd])
            exact ⟨b :: bs, by simp [hb, hbs]⟩
        have hmap : (d0 :: ds).map (fun d => (d.get? k).map DVar.data) = ms.map (fun b => some (.chars b)) := by
          have : (d0 :: ds).map (fun d => (d.get? k).map DVar.data) = (vs.map DVar.data).map some := by
            clear hvs hb htot hlook
            generalize d0 :: ds = l at hF
            induction hF with
            | nil => rfl
            | cons h1 _ ih => simp only [List.map_cons, h1.1, ih, Option.map_some]
          rw [this, hb, List.map_map]
          rfl
        have hax : stationAxis v = 0 := by
          simp only at hc
          simp [stationAxis, hc, List.findIdx_cons]
        have hcat : catData (stationAxis v) (vs.map DVar.data) = .ok (.chars ms.flatten) := by
          rw [hb, hax]
          cases ms with
          | nil => simp at hmap
          | cons b bs =>
            have hme : mapE (charsOf (K := K)) ((b :: bs).map VData.chars) = .ok (b :: bs) := by
              rw [mapE_map]
              simp only [charsOf]
              rw [mapE_pure (fun a : List (List (List Char)) => a) (b :: bs), List.map_id']
            rw [List.map_cons] at hme ⊢
            simp only [catData, if_true, hme]
            rfl
        refine ⟨(k, { v with dims := v.dims.map (fun d => if d.1 = "num_stations" then (d.1,
            ((d0 :: ds).map fun d => (d.size? "num_stations").getD 0).sum) else d), data := .chars ms.flatten }),
          by simp only [hvs, hcat, bind, Except.bind]; rfl, rfl, fun h => absurd hp h, fun _ =>
          ⟨hlay _ _, rfl, by rw [htot]; exact hmem _, ?_, ?_⟩⟩
        · intro a2 h
          exact absurd ⟨a2, h⟩ hnot
        · intro m' _
          exact ⟨ms, rfl, hmap⟩
    · rw [if_neg (by rw [hasStations_iff]; exact hp)]
      exact ⟨_, rfl, rfl, fun _ => rfl, fun h => absurd h hp⟩
  obtain ⟨vars, hvars, hF⟩ := mapE_forall₂ hper
  refine ⟨⟨vars, d0.coords⟩, ?_, rfl, ?_, ?_⟩
  · simp only [concatStations]
    rw [hvars]
    rfl
  · clear hvars
    simp only
    generalize d0.vars = l at hF
    induction hF with
    | nil => rfl
    | cons h1 _ ih => simp only [List.map_cons, h1.1, ih]
  · intro k v hv
    exact lookup_forall₂ (Q := Joined (d0 :: ds) ((d0 :: ds).map n).sum) hF hv

end Lemmas

namespace Lemmas
open Np NDArr Model Spec

section
variable {K : Type} [Field K] [LinearOrder K] [IsStrictOrderedRing K]

theorem mem_setVar {D : Type} {l : List (String × DVar D)} {k : String} {v : DVar D} {kv : String × DVar D}
    (h : kv ∈ setVar l k v) : kv = (k, v) ∨ kv ∈ l := by
  induction l with
  | nil => simpa [setVar] using h
  | cons a l ih =>
    obtain ⟨b, w⟩ := a
    simp only [setVar] at h
    split at h
    · rcases List.mem_cons.1 h with e | e
      · exact Or.inl e
      · exact Or.inr (List.mem_cons_of_mem _ e)
    · rcases List.mem_cons.1 h with e | e
      · exact Or.inr (by rw [e]; simp)
      · rcases ih e with e | e
        · exact Or.inl e
        · exact Or.inr (List.mem_cons_of_mem _ e)

theorem self_mem_setVar {D : Type} (l : List (String × DVar D)) (k : String) (v : DVar D) : (k, v) ∈ setVar l k v :=
  mem_of_lookup (by rw [lookup_setVar, if_pos rfl])

/-- the station coordinate of a file of rank `r` with `n` stations -/
def stationVar (r : Int) (n : Nat) : DVar (NDArr (Fl K)) :=
  ⟨[("num_stations", n)], none, .other (numArr (stationCoords r n))⟩

/-- the file with its station coordinate -/
def withStations (r : Int) (n : Nat) (d : Block K) : Block K :=
  ⟨setVar d.vars "num_stations" (stationVar r n),
    if "num_stations" ∈ d.coords then d.coords else d.coords ++ ["num_stations"]⟩

theorem withStations_get (r : Int) (n : Nat) (d : Block K) (k : String) :
    (withStations r n d).get? k = if k = "num_stations" then some (stationVar r n) else d.get? k :=
  lookup_setVar _ _ _ _

theorem withStations_run {r : Int} {n : Nat} {d : Block K} (h : RunFile n d) : RunFile n (withStations r n d) := by
  have hlen : (stationCoords r n : List K).length = n := by simp [stationCoords]
  refine ⟨setVar_nodup h.names _ _, h.pos, ⟨_, self_mem_setVar _ _ _, by simp [PerStation, stationVar]⟩, ?_, ?_, ?_, ?_⟩
  · intro kv hkv x hx hk
    rcases mem_setVar hkv with rfl | e
    · simp only [stationVar, List.mem_singleton] at hx
      subst hx; rfl
    · exact h.size kv e x hx hk
  · intro kv hkv
    rcases mem_setVar hkv with rfl | e
    · simp [stationVar]
    · exact h.dims kv e
  · intro kv hkv a ha
    rcases mem_setVar hkv with rfl | e
    · simp only [stationVar, VData.other.injEq] at ha
      subst ha
      simp [stationVar, numArr, hlen]
    · exact h.shape kv e a ha
  · intro kv hkv hp
    rcases mem_setVar hkv with rfl | e
    · exact Or.inl ⟨_, rfl⟩
    · exact h.kinds kv e hp

theorem addStations_ok {path : List Char} {r : Int} {n : Nat} {d : Block K} (hr : rankNumber path = .ok r)
    (h : RunFile n d) : addStations path d = .ok (withStations r n d) := by
  have hs := RunFile_size h
  unfold addStations addCoords
  rw [hr]
  simp only [hs]
  unfold Dataset.setCoord
  simp only
  rw [if_pos ⟨trivial, Or.inr hs⟩]
  rfl

theorem withStations_layout {r r' : Int} {n n' : Nat} {d d' : Block K} (h : SameLayout d d') :
    SameLayout (withStations r n d) (withStations r' n' d') := by
  intro k v hv hp
  rw [withStations_get] at hv
  simp only [withStations_get]
  by_cases hk : k = "num_stations"
  · rw [if_pos hk] at hv ⊢
    simp only [Option.some.injEq] at hv
    subst hv
    exact ⟨_, rfl, by simp [layout, stationVar], by simp [stationVar]⟩
  · rw [if_neg hk] at hv ⊢
    exact h k v hv hp

theorem firstStation_spec {r : Int} {n : Nat} (hn : 0 < n) {d : Block K}
    (h : d.get? "num_stations" = some (stationVar r n)) : firstStation d = .ok ((r : K), d) ∧
      stationIndex d = some ((stationCoords r n).map some) := by
  have hi : stationIndex d = some ((stationCoords r n).map some) := by
    unfold stationIndex
    rw [h]
    rfl
  refine ⟨?_, hi⟩
  unfold firstStation
  rw [hi]
  obtain ⟨m, rfl⟩ : ∃ m, n = m + 1 := ⟨n - 1, by omega⟩
  simp [stationCoords, List.range_succ_eq_map]

theorem dictPut_new {α β : Type} [DecidableEq α] (l : List (α × β)) (k : α) (d : β) (h : k ∉ l.map Prod.fst) :
    dictPut l k d = l ++ [(k, d)] := by
  induction l with
  | nil => rfl
  | cons a l ih =>
    obtain ⟨b, w⟩ := a
    simp only [List.map_cons, List.mem_cons, not_or] at h
    simp only [dictPut, if_neg (Ne.symm h.1), ih h.2, List.cons_append]

theorem foldl_dictPut {α β : Type} [DecidableEq α] (l acc : List (α × β))
    (h : ((acc ++ l).map Prod.fst).Nodup) : l.foldl (fun l t => dictPut l t.1 t.2) acc = acc ++ l := by
  induction l generalizing acc with
  | nil => simp
  | cons a l ih =>
    rw [List.foldl_cons, dictPut_new]
    · have := ih (acc ++ [(a.1, a.2)]) (by simpa using h)
      rw [this]
      simp
    · rw [List.map_append, List.nodup_append] at h
      intro hm
      exact h.2.2 _ hm _ (by simp) rfl

/-- every place of the appended lists lies in one of them -/
theorem flatten_place {α : Type} : ∀ (ls : List (List α)) (j : Nat), j < (ls.map List.length).sum →
    ∃ before b after i, ls = before ++ b :: after ∧ i < b.length ∧ j = (before.map List.length).sum + i ∧
      ls.flatten[j]? = b[i]?
  | [], j, h => by simp at h
  | l :: ls, j, h => by
    by_cases hj : j < l.length
    · exact ⟨[], l, ls, j, rfl, hj, by simp, by rw [List.flatten_cons, List.getElem?_append_left hj]⟩
    · obtain ⟨before, b, after, i, h1, h2, h3, h4⟩ := flatten_place ls (j - l.length) (by
        simp only [List.map_cons, List.sum_cons] at h; omega)
      refine ⟨l :: before, b, after, i, by rw [h1]; rfl, h2, ?_, ?_⟩
      · simp only [List.map_cons, List.sum_cons]; omega
      · rw [List.flatten_cons, List.getElem?_append_right (by omega), h4]

theorem numArr_get (l : List K) (i : Nat) (h : i < l.length) : (numArr l).get [i] = some l[i] := by
  simp [numArr, NDArr.get, ravel, h]

/-- lists side by side are appended -/
theorem sideBySide_lists {ls : List (List K)} {c : NDArr (Fl K)} (hne : ls ≠ [])
    (h : SideBySide 0 (ls.map numArr) c) : c = numArr ls.flatten := by
  have hlen : ∀ l : List (List K), lengthAlong 0 (l.map numArr) = (l.map List.length).sum := by
    intro l
    simp [lengthAlong, numArr, Function.comp_def]
  have hs : c.shape = [ls.flatten.length] := by
    cases ls with
    | nil => exact absurd rfl hne
    | cons l r =>
      rw [h.1 (numArr l) (by simp), hlen]
      simp [numArr, List.length_flatten]
  refine NDArr.ext_get (by rw [hs]; rfl) fun i hi => ?_
  rw [hs] at hi
  obtain ⟨j, rfl, hj⟩ : ∃ j, i = [j] ∧ j < ls.flatten.length := by
    match i, hi with
    | [j], hi => exact ⟨j, rfl, by simpa [InB] using hi⟩
  obtain ⟨before, b, after, k, h1, h2, h3, h4⟩ := flatten_place ls j (by rwa [List.length_flatten] at hj)
  have := h.2 (before.map numArr) (numArr b) (after.map numArr) (by rw [h1]; simp) [k] (by simp [InB, numArr, h2])
  rw [hlen] at this
  simp only [List.set_cons_zero, List.getD_cons_zero] at this
  rw [h3, this, numArr_get _ _ h2, ← h3, numArr_get _ _ hj]
  rw [List.getElem?_eq_getElem hj, List.getElem?_eq_getElem h2] at h4
  exact h4.symm

theorem lookup_isSome {β : Type} (l : List (String × β)) (k : String) :
    (l.lookup k).isSome ↔ k ∈ l.map Prod.fst := by
  induction l with
  | nil => simp
  | cons a l ih =>
    obtain ⟨b, w⟩ := a
    rw [List.lookup_cons]
    by_cases h : k = b
    · subst h; simp
    · have : (k == b) = false := by simpa using h
      simp [this, ih, h]

/-- a single file is taken as it is -/
theorem joined_one {n : Nat} {d : Block K} (h : RunFile n d) {k : String} {v : DVar (NDArr (Fl K))}
    (hv : d.get? k = some v) : Joined [d] n k v v := by
  refine ⟨fun _ => rfl, fun hp => ⟨rfl, rfl, ?_, ?_, ?_⟩⟩
  · obtain ⟨x, h1, h2⟩ := List.mem_map.1 hp
    have := h.size _ (mem_of_lookup hv) x h1 h2
    rw [← h2, ← this]
    exact h1
  · intro a ha
    refine ⟨a, [a], ha, by simp [hv, ha], ?_⟩
    rw [← stationAxis_idxOf]
    exact sideBySide_one _ _ (RunFile_width h hv hp ha).1
  · intro m hm
    exact ⟨[m], by simp [hm], by simp [hv, hm]⟩

/-- what opening the files of a run gives -/
theorem openAll_spec {read : List Char → Except Err (Block K)} {paths : List (List Char)} {d : List Char → Block K}
    {r : List Char → Int} {n : List Char → Nat} (hread : ∀ p ∈ paths, read p = .ok (d p))
    (hrank : ∀ p ∈ paths, rankNumber p = .ok (r p)) (hrun : ∀ p ∈ paths, RunFile (n p) (d p))
    (hlay : ∀ p ∈ paths, ∀ q ∈ paths, SameLayout (d p) (d q)) (hdist : paths.Pairwise fun p q => r p ≠ r q)
    (hne : paths ≠ []) :
    ∃ ds first rest, openAll read addStations paths = .ok ds ∧ (first :: rest).Perm paths ∧
      (first :: rest).Pairwise (fun p q => r p < r q) ∧ "num_stations" ∈ ds.coords ∧
      (∀ c, c ∈ (d first).coords → c ∈ ds.coords) ∧
      (∀ k, (ds.get? k).isSome ↔ k = "num_stations" ∨ ((d first).get? k).isSome) ∧
      ds.get? "num_stations" = some ⟨[("num_stations", ((first :: rest).map n).sum)], none,
        .other (numArr ((first :: rest).flatMap fun p => stationCoords (r p) (n p)))⟩ ∧
      ∀ k v, k ≠ "num_stations" → (d first).get? k = some v →
        ∃ w, ds.get? k = some w ∧ Joined ((first :: rest).map d) ((first :: rest).map n).sum k v w := by
  classical
  set D : List Char → Block K := fun p => withStations (r p) (n p) (d p) with hD
  have hopen : mapE (fun p => do let x ← read p; addStations p x) paths = .ok (paths.map D) := by
    refine mapE_eq_map fun p hp => ?_
    rw [hread p hp]
    exact addStations_ok (hrank p hp) (hrun p hp)
  have hget : ∀ p k, (D p).get? k = if k = "num_stations" then some (stationVar (r p) (n p)) else (d p).get? k :=
    fun p k => withStations_get _ _ _ _
  -- the order
  set order := paths.insertionSort fun p q => r p ≤ r q with horder
  have hperm : order.Perm paths := List.perm_insertionSort _ _
  have hsorted : order.Pairwise fun p q => r p < r q := by
    haveI : Std.Total (fun p q : List Char => r p ≤ r q) := ⟨fun a b => le_total _ _⟩
    haveI : IsTrans (List Char) (fun p q => r p ≤ r q) := ⟨fun a b c => le_trans⟩
    have h1 : order.Pairwise fun p q => r p ≤ r q := List.pairwise_insertionSort _ _
    have h2 : order.Pairwise fun p q => r p ≠ r q :=
      hperm.symm.pairwise hdist fun h => h.symm
    exact (h1.and h2).imp fun ⟨a, b⟩ => lt_of_le_of_ne a b
  have hmem : ∀ p, p ∈ order ↔ p ∈ paths := fun p => hperm.mem_iff
  obtain ⟨first, rest, hfr⟩ : ∃ first rest, order = first :: rest := by
    cases h : order with
    | nil => rw [h] at hperm; exact absurd (List.Perm.eq_nil hperm.symm) hne
    | cons a l => exact ⟨a, l, rfl⟩
  have hnum : ∀ (x : Block K), x.coords = (D first).coords → "num_stations" ∈ x.coords ∧
      ∀ c, c ∈ (d first).coords → c ∈ x.coords := by
    intro x hx
    rw [hx]
    simp only [hD, withStations]
    split
    · exact ⟨by assumption, fun c h => h⟩
    · exact ⟨by simp, fun c h => by simp [h]⟩
  rw [hfr] at hperm hsorted hmem
  suffices hmain : ∃ ds : Block K, combineStations (paths.map D) = .ok ds ∧ ds.coords = (D first).coords ∧
      (∀ k, (ds.get? k).isSome ↔ ((D first).get? k).isSome) ∧
      ∀ k v, (D first).get? k = some v → ∃ w, ds.get? k = some w ∧
        Joined ((first :: rest).map D) ((first :: rest).map n).sum k v w by
    obtain ⟨ds, h1, h2, h3, h4⟩ := hmain
    refine ⟨ds, first, rest, ?_, hperm, hsorted, (hnum ds h2).1, (hnum ds h2).2, ?_, ?_, ?_⟩
    · unfold openAll
      rw [hopen]
      exact h1
    · intro k
      rw [h3, hget]
      by_cases hk : k = "num_stations" <;> simp [hk]
    · obtain ⟨w, hw, hj⟩ := h4 "num_stations" (stationVar (r first) (n first)) (by rw [hget, if_pos rfl])
      obtain ⟨hl, hu, hm, ha, -⟩ := hj.2 (by simp [PerStation, stationVar])
      obtain ⟨c, blocks, hc, hb, hside⟩ := ha _ rfl
      have hblocks : blocks = ((first :: rest).map fun p => stationCoords (r p) (n p)).map numArr := by
        have hinj : Function.Injective fun b : NDArr (Fl K) => some (VData.other b) := fun a b h => by
          simpa using h
        refine List.map_injective_iff.2 hinj ?_
        rw [← hb, List.map_map, List.map_map, List.map_map]
        refine List.map_congr_left fun p _ => ?_
        simp only [Function.comp_apply, hget, if_true, Option.map_some, stationVar]
      have hdims : w.dims = [("num_stations", ((first :: rest).map n).sum)] := by
        have hl' : w.dims.map (fun x => (x.1, if x.1 = "num_stations" then 0 else x.2)) = [("num_stations", 0)] := hl
        cases hw' : w.dims with
        | nil => rw [hw'] at hm; simp at hm
        | cons x t =>
          rw [hw'] at hl' hm
          simp only [List.map_cons, List.cons.injEq, List.map_eq_nil_iff] at hl'
          rw [hl'.2] at hm ⊢
          rw [List.mem_singleton] at hm
          rw [hm]
      have hdim : stationDim (stationVar (K := K) (r first) (n first)) = 0 := by
        simp [stationDim, stationVar]
      rw [hblocks, hdim] at hside
      have hcc := sideBySide_lists (by simp) hside
      rw [hw]
      obtain ⟨wd, wu, wc⟩ := w
      simp only at hdims hu hc
      subst hdims hu hc hcc
      rfl
    · intro k v hk hv
      obtain ⟨w, hw, hj⟩ := h4 k v (by rw [hget, if_neg hk]; exact hv)
      refine ⟨w, hw, ?_⟩
      have e : ((first :: rest).map D).map (fun x => (x.get? k).map DVar.data) =
          ((first :: rest).map d).map (fun x => (x.get? k).map DVar.data) := by
        rw [List.map_map, List.map_map]
        refine List.map_congr_left fun p _ => ?_
        simp only [Function.comp_apply, hget, if_neg hk]
      simpa only [Joined, e] using hj
  match paths, hne with
  | [p], _ =>
    obtain rfl : first = p := by simpa using hmem first
    obtain rfl : rest = [] := by simpa using hperm.length_eq
    refine ⟨D first, rfl, rfl, fun k => Iff.rfl, fun k v hv => ⟨v, hv, ?_⟩⟩
    simpa using joined_one (withStations_run (hrun first (by simp))) hv
  | p :: q :: l, _ =>
    have hrunD : ∀ x ∈ D first :: rest.map D, RunFile (((x.size? "num_stations").getD 0)) x := by
      intro x hx
      rw [← List.map_cons] at hx
      obtain ⟨t, ht, rfl⟩ := List.mem_map.1 hx
      have hR := withStations_run (r := r t) (hrun t ((hmem t).1 ht))
      rw [RunFile_size hR]
      exact hR
    have hlayD : ∀ x ∈ D first :: rest.map D, SameLayout (D first) x := by
      intro x hx
      rw [← List.map_cons] at hx
      obtain ⟨t, ht, rfl⟩ := List.mem_map.1 hx
      exact withStations_layout (hlay _ ((hmem first).1 (by simp)) _ ((hmem t).1 ht))
    obtain ⟨x, hx1, hx2, hx3, hx4⟩ := concatStations_spec hrunD hlayD
    have hsum : ((D first :: rest.map D).map fun x => (x.size? "num_stations").getD 0).sum =
        ((first :: rest).map n).sum := by
      rw [← List.map_cons, List.map_map]
      congr 1
      refine List.map_congr_left fun t ht => ?_
      simp only [Function.comp_apply]
      rw [RunFile_size (withStations_run (hrun t ((hmem t).1 ht)))]
      rfl
    refine ⟨x, ?_, hx2, ?_, ?_⟩
    · have hfirst : ∀ t ∈ p :: q :: l, firstStation (D t) = .ok ((r t : K), D t) ∧
          stationIndex (D t) = some ((stationCoords (r t) (n t)).map some) := fun t ht =>
        firstStation_spec (hrun t ht).pos (by rw [hget, if_pos rfl])
      have htiles : mapE firstStation ((p :: q :: l).map D) = .ok ((p :: q :: l).map fun t => ((r t : K), D t)) := by
        rw [mapE_map]
        exact mapE_eq_map fun t ht => (hfirst t ht).1
      have hdiff : ¬ ((D q :: l.map D).all fun x => stationIndex x = stationIndex (D p)) = true := by
        intro hall
        simp only [List.all_cons, Bool.and_eq_true, decide_eq_true_eq] at hall
        have h1 := (hfirst q (by simp)).2
        have h2 := (hfirst p (by simp)).2
        rw [h1, h2] at hall
        have h3 := hall.1
        obtain ⟨a, ha⟩ : ∃ a, n q = a + 1 := ⟨n q - 1, by have := (hrun q (by simp)).pos; omega⟩
        obtain ⟨b, hb⟩ : ∃ b, n p = b + 1 := ⟨n p - 1, by have := (hrun p (by simp)).pos; omega⟩
        rw [ha, hb] at h3
        simp only [stationCoords, List.range_succ_eq_map, List.map_cons, Option.some.injEq, List.cons.injEq,
          Nat.cast_zero, zero_div, add_zero, Int.cast_inj] at h3
        rw [List.pairwise_cons] at hdist
        exact hdist.1 q (by simp) h3.1.symm
      have hfold : ((p :: q :: l).map fun t => ((r t : K), D t)).foldl (fun l t => dictPut l t.1 t.2) [] =
          (p :: q :: l).map fun t => ((r t : K), D t) := by
        have := foldl_dictPut ((p :: q :: l).map fun t => ((r t : K), D t)) [] (by
          rw [List.nil_append, List.map_map]
          refine List.Pairwise.map _ (fun a b h => ?_) hdist
          simpa using h)
        simpa using this
      have hsort : (((p :: q :: l).map fun t => ((r t : K), D t)).insertionSort fun a b => a.1 ≤ b.1).map Prod.snd =
          D first :: rest.map D := by
        rw [← List.map_insertionSort (r := fun p q => r p ≤ r q) (s := fun a b : K × Block K => a.1 ≤ b.1)
          (fun t => ((r t : K), D t)) (p :: q :: l) (fun a _ b _ => by simp), ← horder, hfr]
        simp
      simp only [List.map_cons] at htiles hfold hsort ⊢
      unfold combineStations
      simp only [htiles, bind, Except.bind]
      rw [if_neg hdiff, hfold, hsort]
      exact hx1
    · intro k
      unfold Dataset.get?
      rw [lookup_isSome, lookup_isSome, hx3]
    · intro k v hv
      obtain ⟨w, hw, hj⟩ := hx4 k v hv
      rw [hsum] at hj
      exact ⟨w, hw, hj⟩

end
end Lemmas
