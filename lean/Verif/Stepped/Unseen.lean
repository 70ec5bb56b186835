import Verif.Stepped.Run

/-! # C57: what is not watched is not seen -/

namespace Verif.Stepped

theorem updateAwareness_said (L : Look) (hL : Quiet L) (σ : St) (s b : Obj) (v : Bool) (a : Obj) (hab : a ≠ b) (s' : Obj) :
    said (updateAwareness L σ s b v).log s' a = said σ.log s' a := by
  have one : ∀ e, said (σ.log ++ [⟨s, b, e⟩]) s' a = said σ.log s' a := fun e => by
    rw [said_append, said_one, if_neg (fun hc => hab hc.2.symm), List.append_nil]
  unfold updateAwareness
  split
  · split
    · rfl
    · rw [hL s b]; exact one true
  · split
    · exact one false
    · rfl

theorem checkObjects_said (L : Look) (hL : Quiet L) (s : Obj) (as : List Obj) (σ : St) (a : Obj) (ha : a ∉ as) (s' : Obj) :
    said (checkObjects L s as σ).1.log s' a = said σ.log s' a := by
  induction as generalizing σ with
  | nil => rfl
  | cons b as ih =>
    simp only [List.mem_cons, not_or] at ha
    simp only [checkObjects]
    split
    · exact ih σ ha.2
    · split
      · rfl
      · exact (ih _ ha.2).trans (updateAwareness_said L hL σ s b _ a ha.1 s')

theorem checkSensors_said (L : Look) (hL : Quiet L) (as ss : List Obj) (σ : St) (a : Obj) (ha : a ∉ as) (s' : Obj) :
    said (checkSensors L as ss σ).1.log s' a = said σ.log s' a := by
  induction ss generalizing σ with
  | nil => rfl
  | cons s ss ih =>
    have h1 := checkObjects_said L hL s as σ a ha s'
    simp only [checkSensors]
    rcases hc : checkObjects L s as σ with ⟨τ, o⟩
    rw [hc] at h1
    cases o with
    | ok => exact (ih τ).trans h1
    | error => exact h1
    | refused => exact h1

theorem runDetectable_said (L : Look) (hL : Quiet L) (req : Option (List Obj)) (σ : St) (a : Obj) (ha : a ∉ σ.detectables) (s' : Obj) :
    said (runDetectable L req σ).1.log s' a = said σ.log s' a := by
  unfold runDetectable
  dsimp only
  split
  · rename_i hc
    exact checkSensors_said L hL _ _ σ a (fun h => ha (hc.1 a h)) s'
  · rfl

/-- Operations that make the manager watch `a`. -/
def Op.Watches (a : Obj) : Op → Prop
  | .addDetectable b _ => b = a
  | .startMover b _ => b = a
  | _ => False

theorem unseen_step (c : Cfg) (σ : St) (h : InvA σ) (o : Op) (hq : o.Quiet) (a : Obj) (ha : a ∉ σ.detectables) (ho : ¬ o.Watches a) :
    a ∉ (step c σ o).1.detectables ∧ ∀ s, Aware (step c σ o).1.log s a → Aware σ.log s a := by
  have chk : ∀ L req (τ : St), o.look? = some L → InvA τ → τ.detectables = σ.detectables → τ.log = σ.log →
      a ∉ (runDetectable L req τ).1.detectables ∧ ∀ s, Aware (runDetectable L req τ).1.log s a → Aware σ.log s a := fun L req τ hL hτ h1 h2 => by
    refine ⟨by rw [(runDetectable_invA L req τ hτ).2.1.detectables, h1]; exact ha, fun s hs => ?_⟩
    rw [Aware, runDetectable_said L (hq L hL) req τ a (by rw [h1]; exact ha), h2] at hs
    exact hs
  have none' : ∀ τ : St, τ.detectables = σ.detectables → τ.log = σ.log → a ∉ τ.detectables ∧ ∀ s, Aware τ.log s a → Aware σ.log s a :=
    fun τ h1 h2 => ⟨by rw [h1]; exact ha, fun s => by rw [h2]; exact id⟩
  have addKey' : ∀ b, b ≠ a → a ∉ addKey σ.detectables b := fun b hb hc => by
    unfold addKey at hc
    split at hc
    · exact ha hc
    · rcases List.mem_append.1 hc with hc | hc
      · exact ha hc
      · exact hb (List.mem_singleton.1 hc).symm
  cases o with
  | addSensor s ok => cases ok <;> exact none' _ rfl rfl
  | addDetectable b ok =>
    cases ok
    · exact none' _ rfl rfl
    · exact ⟨addKey' b ho, fun s => id⟩
  | startMover b ok =>
    simp only [step, addMover]
    split <;> split <;> (try split) <;> first | exact none' _ rfl rfl | exact ⟨addKey' b ho, fun s => id⟩
  | stopMover b => exact ⟨fun hc => ha (List.mem_of_mem_erase hc), fun s => id⟩
  | setDetectable b v L =>
    cases v with
    | true => exact chk L (some [b]) _ rfl (h.frame rfl rfl) rfl rfl
    | false => exact ⟨ha, fun s hs => (h.aware s a).1 ((hide_aware h b s a).1 hs).1⟩
  | particular b L => exact chk L (some [b]) _ rfl h rfl rfl
  | run => exact none' _ rfl rfl
  | beginRun => simp only [step]; split <;> (try split) <;> (try split) <;> exact none' _ rfl rfl
  | timer e L =>
    rcases timer_cases σ with ⟨n, rest, hl⟩ | hl
    · obtain ⟨τ, o, hr, -, h1, -⟩ := timer_eq c σ e L n rest hl
      have := chk L none { σ with loops := rest, checks := σ.checks ++ [(σ.now, e)] } rfl (h.frame rfl rfl) rfl rfl
      rw [hr] at this
      rw [h1]
      split
      · unfold again; split <;> (try split) <;> exact this
      · exact this
    · rw [timer_other c σ e L hl]; exact none' _ rfl rfl
  | advance t => simp only [step]; split <;> exact none' _ rfl rfl
  | reorder view => simp only [step]; split <;> exact none' _ rfl rfl

theorem unseen_exec (c : Cfg) (os : List Op) (σ : St) (h : InvA σ) (hq : ∀ o ∈ os, o.Quiet) (a : Obj) (ha : a ∉ σ.detectables) (ho : ∀ o ∈ os, ¬ o.Watches a) :
    a ∉ (exec c os σ).detectables ∧ ∀ s, Aware (exec c os σ).log s a → Aware σ.log s a := by
  induction os generalizing σ with
  | nil => exact ⟨ha, fun s => id⟩
  | cons o os ih =>
    obtain ⟨h1, h2⟩ := unseen_step c σ h o (hq o (List.mem_cons_self ..)) a ha (ho o (List.mem_cons_self ..))
    obtain ⟨h3, h4⟩ := ih _ (step_invA c σ o h) (fun o h => hq o (List.mem_cons_of_mem _ h)) h1 (fun o h => ho o (List.mem_cons_of_mem _ h))
    exact ⟨h3, fun s hs => h2 s (h4 s hs)⟩

theorem addKey_nodup {l : List Obj} (h : l.Nodup) (k : Obj) : (addKey l k).Nodup := by
  unfold addKey
  split
  · exact h
  · rename_i hk
    exact List.nodup_append.2 ⟨h, List.nodup_singleton k, fun x hx y hy hxy => hk (by rw [List.mem_singleton] at hy; rw [← hy, ← hxy]; exact hx)⟩

/-- The keys of a dictionary are distinct. -/
theorem detectables_nodup (c : Cfg) (os : List Op) (σ : St) (h : InvA σ) (hd : σ.detectables.Nodup) : (exec c os σ).detectables.Nodup := by
  induction os generalizing σ with
  | nil => exact hd
  | cons o os ih =>
    refine ih _ (step_invA c σ o h) ?_
    have same : ∀ τ : St, τ.detectables = σ.detectables → τ.detectables.Nodup := fun τ e => by rw [e]; exact hd
    cases o with
    | addSensor s ok => cases ok <;> exact hd
    | addDetectable b ok => cases ok <;> first | exact hd | exact addKey_nodup hd b
    | startMover b ok =>
      simp only [step, addMover]
      split <;> split <;> (try split) <;> first | exact hd | exact addKey_nodup hd b
    | stopMover b => exact hd.erase b
    | setDetectable b v L =>
      cases v with
      | true => exact same _ (runDetectable_invA L (some [b]) { σ with det := fun x => if x = b then true else σ.det x } (h.frame rfl rfl)).2.1.detectables
      | false => exact hd
    | particular b L => exact same _ (runDetectable_invA L (some [b]) _ h).2.1.detectables
    | run => exact hd
    | beginRun => simp only [step]; split <;> (try split) <;> (try split) <;> exact hd
    | timer e L =>
      rcases timer_cases σ with ⟨n, rest, hl⟩ | hl
      · obtain ⟨τ, o, hr, -, h1, -⟩ := timer_eq c σ e L n rest hl
        have := (runDetectable_invA L none { σ with loops := rest, checks := σ.checks ++ [(σ.now, e)] } (h.frame rfl rfl)).2.1.detectables
        rw [hr] at this
        rw [h1]
        split
        · unfold again; split <;> (try split) <;> exact same _ this
        · exact same _ this
      · rw [timer_other c σ e L hl]; exact hd
    | advance t => simp only [step]; split <;> exact hd
    | reorder view => simp only [step]; split <;> exact hd

theorem checkObjects_ok (L : Look) (s : Obj) (as : List Obj) (h : ∀ a ∈ as, a ≠ s → L.sees s a ≠ none) (σ : St) : (checkObjects L s as σ).2 = .ok := by
  induction as generalizing σ with
  | nil => rfl
  | cons a as ih =>
    have ih := ih (fun b hb => h b (List.mem_cons_of_mem _ hb))
    simp only [checkObjects]
    split
    · exact ih σ
    · rename_i hne
      cases hl : L.sees s a with
      | none => exact absurd hl (h a (List.mem_cons_self ..) hne)
      | some v => exact ih _

theorem checkSensors_ok (L : Look) (as ss : List Obj) (h : ∀ s ∈ ss, ∀ a ∈ as, a ≠ s → L.sees s a ≠ none) (σ : St) : (checkSensors L as ss σ).2 = .ok := by
  induction ss generalizing σ with
  | nil => rfl
  | cons s ss ih =>
    have ho := checkObjects_ok L s as (h s (List.mem_cons_self ..)) σ
    simp only [checkSensors]
    rcases hc : checkObjects L s as σ with ⟨τ, o⟩
    rw [hc] at ho
    dsimp only at ho
    subst ho
    exact ih (fun s hs => h s (List.mem_cons_of_mem _ hs)) τ

/-- A check raises only if reading does, or asking a sensor. -/
theorem timer_ok (c : Cfg) (σ : St) (empty : Bool) (L : Look) (n : Int) (rest : List (Rat × Int)) (hl : σ.loops = (σ.now, n) :: rest) (hr : L.reads = true)
    (h : ∀ s ∈ σ.sensors, ∀ a ∈ σ.detectables.filter σ.det, a ≠ s → L.sees s a ≠ none) : (step c σ (.timer empty L)).2 = .ok := by
  obtain ⟨τ, o, h1, h2, -⟩ := timer_eq c σ empty L n rest hl
  rw [h2]
  simp only [runDetectable, Option.getD_none] at h1
  rw [if_pos ⟨fun a ha => List.mem_of_mem_filter ha, hr⟩] at h1
  have := checkSensors_ok L (σ.detectables.filter σ.det) σ.sensors h { σ with loops := rest, checks := σ.checks ++ [(σ.now, empty)] }
  rw [h1] at this
  exact this

end Verif.Stepped
