import Verif.Lemmas.SavePath
import Verif.Lemmas.Api

/-! Save names with slashes: the names the metrics use. -/

set_option linter.unusedSectionVars false

namespace Lemmas
open Np Spec Model

variable {X V A : Type}

theorem namesIn_of_allIn {Q : Name → Prop} {p : Prog V} (h : AllIn Q p) : NamesIn Q p := by
  induction p with
  | ret _ => trivial
  | draw k ih => exact fun n => ih n (h n)
  | call name body k ihb ihk => exact ⟨h.1, ihb h.2.1, fun v => ihk v (h.2.2 v)⟩

theorem NamesIn.mono {Q Q' : Name → Prop} (hq : ∀ n, Q n → Q' n) {p : Prog V} (h : NamesIn Q p) : NamesIn Q' p := by
  induction p with
  | ret _ => trivial
  | draw k ih => exact fun n => ih n (h n)
  | call name body k ihb ihk => exact ⟨fun n hn => hq n (h.1 n hn), ihb h.2.1, fun v => ihk v (h.2.2 v)⟩

/-- the names a call uses: the one it was given and default ones -/
theorem namesIn_named (C : Cls) (I : ArgInfo A) (P : Prims X V A) {Q : Name → Prop} (x : X) (avg : PyAxis) (boot : PyBoot)
    (name : Option (List Char)) (r : Req A)
    (h1 : ∀ n, slotNameAs I name (match r with | .slot s => s | .rmse => .sqError) = .ok (some n) → Q n)
    (h2 : ∀ (s : Slot A) n, slotName I s = .ok (some n) → Q n) :
    NamesIn Q (namedProg C I P x avg boot name r) := by
  apply namesIn_of_allIn
  cases r with
  | slot s =>
    simp only [namedProg]
    split
    · trivial
    · exact allIn_callName h1 (allIn_slotBody C I P (fun s _ => h2 s) x avg boot s) fun v => allIn_slotPost P avg boot s v
  | rmse =>
    refine allIn_callName h1 (allIn_withDet C I P (fun s _ => h2 s) x _) fun v => ?_
    unfold bootOrAvgP
    split
    · trivial
    · intro _; trivial

theorem noSlash_none : '/' ∉ "None".toList := by decide

theorem noSlash_noSpaces {s : List Char} (h : '/' ∉ s) : '/' ∉ noSpaces s := by
  intro hc
  rcases mem_noSpaces hc with hc | hc
  · exact h hc
  · cases hc

theorem noSlash_inter {c b : List Char} {ps : List (List Char)} (hc : '/' ∉ c) (hb : '/' ∉ b) (hp : ∀ p ∈ ps, '/' ∉ p) :
    '/' ∉ c.intercalate (b :: ps) := by
  induction ps generalizing b with
  | nil => simpa [List.intercalate] using hb
  | cons p ps ih =>
    have := ih (hp p (by simp)) fun q hq => hp q (by simp [hq])
    rw [show c.intercalate (b :: p :: ps) = b ++ c ++ c.intercalate (p :: ps) by
      simp [List.intercalate]]
    simp only [List.mem_append, not_or]
    exact ⟨⟨hb, hc⟩, this⟩

/-- a name built from texts without slashes has none -/
theorem noSlash_toName {I : ArgInfo A} (hI : ∀ a, '/' ∉ I.text a) {b : List Char} (hb : '/' ∉ b)
    {args : List (List Char × Option A)} (ha : ∀ q ∈ args, '/' ∉ q.1) {n : Name}
    (h : toName I (some b) args = .ok (some n)) : '/' ∉ n := by
  unfold toName at h
  simp only at h
  split at h
  · cases h
    exact fun hc => noSlash_noSpaces hb (List.mem_of_mem_drop hc)
  · split at h
    · cases h
    · cases h
    · rename_i ps hps
      cases h
      refine noSlash_inter (by decide) (noSlash_noSpaces hb) ?_
      rw [nameParts_some hps]
      intro p hp
      obtain ⟨q, hq, rfl⟩ := List.mem_map.1 hp
      simp only [List.mem_append, not_or]
      refine ⟨⟨ha q hq, by decide⟩, noSlash_noSpaces ?_⟩
      cases q.2 with
      | none => exact noSlash_none
      | some a => exact hI a

theorem noSlash_args (s : Slot A) : ∀ q ∈ slotArgs s, '/' ∉ q.1 := by
  have ob : ∀ o b : Option A, ∀ q ∈ obArgs o b, '/' ∉ q.1 := by
    intro o b q hq
    simp only [obArgs, List.mem_cons, List.not_mem_nil, or_false] at hq
    rcases hq with rfl | rfl
    · exact (by decide : '/' ∉ "over".toList)
    · exact (by decide : '/' ∉ "below".toList)
  cases s with
  | brierDecomp o b => exact ob o b
  | brier o b => exact ob o b
  | cdf o b => exact ob o b
  | roc o b => exact ob o b
  | sharpness o b => exact ob o b
  | iouDeterm o b => exact ob o b
  | iouProb o b => exact ob o b
  | reliability n o b =>
    intro q hq
    rcases List.mem_cons.1 hq with rfl | hq
    · exact (by decide : '/' ∉ "nbins".toList)
    · exact ob o b q hq
  | ss n =>
    intro q hq
    simp only [slotArgs, List.mem_cons, List.not_mem_nil, or_false] at hq
    subst hq; exact (by decide : '/' ∉ "nbins".toList)
  | _ => intro q hq; simp [slotArgs] at hq

theorem noSlash_shown {I : ArgInfo A} (hI : ∀ a, '/' ∉ I.text a) (o : Option A) : '/' ∉ shown I o := by
  refine noSlash_noSpaces ?_
  cases o with
  | none => exact noSlash_none
  | some a => exact hI a

theorem noSlash_slot {I : ArgInfo A} (hI : ∀ a, '/' ∉ I.text a) {s : Slot A} {n : Name}
    (h : slotName I s = .ok (some n)) : '/' ∉ n := by
  obtain ⟨rfl, -, -⟩ := slotName_text h
  have hs := noSlash_shown hI
  have app : ∀ {x y : List Char}, '/' ∉ x → '/' ∉ y → '/' ∉ x ++ y := fun h h' => by
    rw [List.mem_append, not_or]; exact ⟨h, h'⟩
  have ob : ∀ o b : Option A, '/' ∉ obText I o b := by
    intro o b
    simp only [obText, List.mem_append, not_or]
    exact ⟨⟨by decide, ⟨⟨by decide, by decide⟩, hs o⟩⟩, ⟨by decide, ⟨⟨by decide, by decide⟩, hs b⟩⟩⟩
  have nb : ∀ m : A, '/' ∉ nbText I m := by
    intro m
    simp only [nbText, List.mem_append, not_or]
    exact ⟨by decide, ⟨⟨by decide, by decide⟩, hs _⟩⟩
  cases s with
  | brier o b => exact app (by decide) (ob o b)
  | cdf o b => exact app (by decide) (ob o b)
  | roc o b => exact app (by decide) (ob o b)
  | sharpness o b => exact app (by decide) (ob o b)
  | iouDeterm o b => exact app (by decide) (ob o b)
  | iouProb o b => exact app (by decide) (ob o b)
  | reliability m o b => exact app (by decide) (app (nb m) (ob o b))
  | ss m => exact app (by decide) (nb m)
  | crps => exact (by decide : '/' ∉ "crps".toList)
  | error => exact (by decide : '/' ∉ "error".toList)
  | spread => exact (by decide : '/' ∉ "spread".toList)
  | sqError => exact (by decide : '/' ∉ "sq_error".toList)
  | abError => exact (by decide : '/' ∉ "ab_error".toList)
  | rankHist => exact (by decide : '/' ∉ "rank".toList)
  | variance => exact (by decide : '/' ∉ "variance".toList)
  | fDeterm => exact (by decide : '/' ∉ "f_determ".toList)
  | probToEns => exact (by decide : '/' ∉ "prob_to_ens".toList)
  | pit => exact (by decide : '/' ∉ "pit".toList)
  | corr => exact List.not_mem_nil
  | brierDecomp o b => exact List.not_mem_nil

/-! ### names without slashes -/

theorem resolve_plain {fs : FS V} {cwd d : Path} {t : List Char} (ht : t ≠ []) (hd : resolve fs cwd t = .ok d)
    (hdir : fs d = some .dir) {n : Name} (hn : '/' ∉ n) :
    resolve fs cwd (joinPath t (n ++ ".pkl".toList)) = .ok (filePath d n) := by
  have hs : '/' ∉ n ++ ".pkl".toList := by
    rw [List.mem_append, not_or]; exact ⟨hn, by decide⟩
  have hh : (n ++ ".pkl".toList).head? ≠ some '/' := fun h => hs (List.mem_of_mem_head? h)
  obtain ⟨h1, h2, h3⟩ := pkl_ne n
  rw [resolve_join _ _ ht hh, hd, comps_plain hs]
  have hnode : nodeAt fs d = some .dir := by
    unfold nodeAt
    split
    · rfl
    · exact hdir
  simp only [Except.bind, walk, hnode, stepPath, h1, h2, h3, or_self, if_false, filePath]

theorem save_dirs (wd : Option Path) (name : Option Name) (v : V) (w : World V) : SameDirs w.fs (save wd name v w).2.fs := by
  unfold save
  split
  · rename_i d n
    split
    · split
      · exact fun _ => Iff.rfl
      · rename_i hx
        intro q
        simp only [World.eff, FS.set]
        by_cases hq : q = filePath d n
        · rw [hq, if_pos rfl]
          constructor
          · intro h; exact absurd h (hx)
          · intro h; cases h
        · rw [if_neg hq, if_neg hq]
    · exact fun _ => Iff.rfl
  · exact fun _ => Iff.rfl

theorem run_dirs (wd : Option Path) (prog : Prog V) : ∀ w : World V, SameDirs w.fs (prog.run wd w).2.fs := by
  induction prog with
  | ret r => intro w q; exact Iff.rfl
  | draw k ih => intro w; exact ih _ { w with pos := w.pos + 1 }
  | call name body k ihb ihk =>
    intro w
    rw [Prog.run]
    cases load wd name w with
    | error e => exact fun _ => Iff.rfl
    | ok o =>
      cases o with
      | some v => exact ihk v w
      | none =>
        have hb := ihb w
        cases hr : body.run wd w with
        | mk res w1 =>
          rw [hr] at hb
          cases res with
          | error e => exact hb
          | ok v =>
            have hs := save_dirs wd name v w1
            dsimp only
            cases hsv : save wd name v w1 with
            | mk r2 w2 =>
              rw [hsv] at hs
              cases r2 with
              | error e => exact fun q => (hb q).trans (hs q)
              | ok u => exact fun q => ((hb q).trans (hs q)).trans (ihk v w2 q)

/-- without slashes nothing is new -/
theorem runS_plain (cwd : Path) {t : List Char} (ht : t ≠ []) {d : Path} (prog : Prog V)
    (hn : NamesIn (fun n => '/' ∉ n) prog) : ∀ w : World V, resolve w.fs cwd t = .ok d → w.fs d = some .dir →
    prog.runS cwd (some t) w = prog.run (some d) w := by
  obtain ⟨c, t, rfl⟩ := List.exists_cons_of_ne_nil ht
  induction prog with
  | ret r => intro w _ _; rfl
  | draw k ih => intro w h1 h2; exact ih _ (hn _) { w with pos := w.pos + 1 } h1 h2
  | call name body k ihb ihk =>
    intro w h1 h2
    obtain ⟨ha, hb, hk⟩ := hn
    have hload : loadS cwd (some (c :: t)) name w = load (some d) name w := by
      cases name with
      | none => rfl
      | some n =>
        simp only [loadS, load, resolve_plain ht h1 h2 (ha n rfl)]
        rfl
    rw [Prog.runS, Prog.run, hload]
    cases load (some d) name w with
    | error e => rfl
    | ok o =>
      cases o with
      | some v => exact ihk v (hk v) w h1 h2
      | none =>
        dsimp only
        rw [ihb hb w h1 h2]
        have hd := run_dirs (some d) body w
        cases hr : body.run (some d) w with
        | mk res w1 =>
          rw [hr] at hd
          cases res with
          | error e => rfl
          | ok v =>
            dsimp only
            have h1' := (hd.resolve cwd (c :: t)).1 h1
            have h2' := (hd d).1 h2
            have hsave : saveS cwd (some (c :: t)) name v w1 = save (some d) name v w1 := by
              cases name with
              | none => rfl
              | some n =>
                simp only [saveS, save, resolve_plain ht h1' h2' (ha n rfl)]
                rw [h2']
                rfl
            rw [hsave]
            have hs := save_dirs (some d) name v w1
            cases hsv : save (some d) name v w1 with
            | mk r2 w2 =>
              rw [hsv] at hs
              cases r2 with
              | error e => rfl
              | ok u => exact ihk v (hk v) w2 ((hs.resolve cwd (c :: t)).1 h1') ((hs d).1 h2')

theorem namesIn_true {Q : Name → Prop} (h : ∀ n, Q n) (p : Prog V) : NamesIn Q p := by
  induction p with
  | ret _ => trivial
  | draw k ih => exact fun n => ih n
  | call name body k ihb ihk => exact ⟨fun n _ => h n, ihb, ihk⟩

end Lemmas
