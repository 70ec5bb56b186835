import Verif.Drive.Model
import Verif.Queued.Frame

/-! # The manager and the detectability of others -/

namespace Verif.Drive

open Verif.Queued

variable {α L : Type} [Field α] [LinearOrder α]

/-- The manager with other `DetectabilityState`s. -/
def re (μ : St α L) (d : Nat → Option Bool) : St α L := { μ with detect := d }

theorem schedule_re (m s : Nat) (μ : St α L) (d) (p) : schedule m s (re μ d) p = re (schedule m s μ p) d := by
  unfold schedule
  by_cases h : p.1.time ≤ μ.now ∧ p.2.time < μ.now
  · rw [if_pos h]; exact if_pos h
  · rw [if_neg h]; exact if_neg h

theorem fold_re (m s : Nat) (ps : List (Entry α × Entry α)) (μ : St α L) (d) : ps.foldl (schedule m s) (re μ d) = re (ps.foldl (schedule m s) μ) d := by
  induction ps generalizing μ with
  | nil => rfl
  | cons p ps ih => rw [List.foldl_cons, List.foldl_cons, schedule_re, ih]

theorem findOne_re (I : Inter α L) (μ : St α L) (d) (m s : Nat) : findOne I (re μ d) m s = (re (findOne I μ m s).1 d, (findOne I μ m s).2) := by
  unfold findOne
  rw [show (re μ d).movers = μ.movers from rfl]
  cases μ.movers.get? m with
  | none => rfl
  | some t =>
    dsimp only
    cases processPair I t s with
    | none => rfl
    | some ps => dsimp only; rw [fold_re]

theorem find_re (I : Inter α L) (l : List (Nat × Nat)) (μ : St α L) (d) : find I l (re μ d) = (re (find I l μ).1 d, (find I l μ).2) := by
  induction l generalizing μ with
  | nil => rfl
  | cons p l ih =>
    obtain ⟨m, s⟩ := p
    rw [find_cons, find_cons, findOne_re]
    dsimp only
    split
    · exact ih _
    · rfl

theorem setProc_re (μ : St α L) (d) (i : Nat) (p) : setProc (re μ d) i p = re (setProc μ i p) d := rfl
theorem tell_re (μ : St α L) (d) (m s : Nat) (e) : tell (re μ d) m s e = re (tell μ m s e) d := rfl
theorem addToView_re (μ : St α L) (d) (m s : Nat) : addToView (re μ d) m s = re (addToView μ m s) d := by
  unfold addToView
  by_cases h : s ∈ μ.inView m
  · rw [if_pos h]; exact if_pos h
  · rw [if_neg h]; exact if_neg h

theorem afterEntry_re (μ : St α L) (d) (i : Nat) (p) : afterEntry (re μ d) i p = (re (afterEntry μ i p).1 d, (afterEntry μ i p).2) := by
  unfold afterEntry
  rw [show (re μ d).now = μ.now from rfl]
  split
  · rfl
  · split <;> rfl

theorem begins_re (μ : St α L) (d) (i : Nat) (p) : begins (re μ d) i p = (re (begins μ i p).1 d, (begins μ i p).2) := by
  unfold begins
  rw [show (re μ d).now = μ.now from rfl, show (re μ d).inView = μ.inView from rfl]
  split
  · rw [addToView_re]; dsimp only; rw [tell_re]
    split <;> exact afterEntry_re _ _ _ _
  · split <;> rfl

theorem leaves_re (μ : St α L) (d) (i : Nat) (p) : leaves (re μ d) i p = (re (leaves μ i p).1 d, (leaves μ i p).2) := by
  unfold leaves
  rw [show (re μ d).inView = μ.inView from rfl]
  dsimp only
  split <;> rfl

theorem fire_re (μ : St α L) (d) (i : Nat) : fire (re μ d) i = (re (fire μ i).1 d, (fire μ i).2) := by
  unfold fire
  rw [show (re μ d).procs = μ.procs from rfl, show (re μ d).now = μ.now from rfl]
  cases μ.procs[i]? with
  | none => rfl
  | some p =>
    dsimp only
    cases p.stage with
    | over => rfl
    | fresh => exact begins_re _ _ _ _
    | entry due =>
      dsimp only
      split
      · rfl
      · split
        · rw [tell_re, addToView_re]; exact afterEntry_re _ _ _ _
        · rfl
    | exit due =>
      dsimp only
      split
      · rfl
      · split
        · exact leaves_re _ _ _ _
        · rfl

theorem stopMover_detect (μ : St α L) (a : Nat) (f : Bool) : (stopMover μ a f).1.detect = μ.detect := by
  rcases stopMover_cases μ a f with ⟨o, h⟩ | ⟨-, h⟩ <;> rw [h] <;> rfl

theorem findOne_detect (I : Inter α L) (μ : St α L) (m s : Nat) : (findOne I μ m s).1.detect = μ.detect := by
  unfold findOne
  cases μ.movers.get? m with
  | none => rfl
  | some t =>
    dsimp only
    cases processPair I t s with
    | none => rfl
    | some ps =>
      dsimp only
      induction ps generalizing μ with
      | nil => rfl
      | cons p ps ih =>
        rw [List.foldl_cons, ih]
        unfold schedule; split <;> rfl

theorem find_detect (I : Inter α L) (l : List (Nat × Nat)) (μ : St α L) : (find I l μ).1.detect = μ.detect := by
  induction l generalizing μ with
  | nil => rfl
  | cons p l ih =>
    obtain ⟨m, s⟩ := p
    rw [find_cons]
    split
    · rw [ih, findOne_detect]
    · exact findOne_detect _ _ _ _

/-- The manager does the same for the actors below `k` if their detectability is the same. -/
theorem step_re (I : Inter α L) (k : Nat) (μ : St α L) (d : Nat → Option Bool) (hd : ∀ a < k, d a = μ.detect a) (o : Queued.Op α L)
    (ho : ∀ a, (o = .stop a ∨ (∃ v, o = .detect a v) ∨ ∃ v ws, o = .start a v ws) → a < k) :
    ∃ d', Queued.step I (re μ d) o = (re (Queued.step I μ o).1 d', (Queued.step I μ o).2) ∧ (∀ a < k, d' a = (Queued.step I μ o).1.detect a) ∧
      ∀ a, k ≤ a → d' a = d a := by
  have hs : ∀ (μ : St α L) (d : Nat → Option Bool) (a : Nat) (f : Bool), d a = μ.detect a → stopMover (re μ d) a f = (re (stopMover μ a f).1 d, (stopMover μ a f).2) := by
    intro μ d a f h
    unfold stopMover
    rw [show (re μ d).detect a = d a from rfl, h, show (re μ d).movers = μ.movers from rfl]
    cases μ.detect a with
    | none => rfl
    | some b =>
      dsimp only
      split
      · rfl
      · split
        · rfl
        · split <;> rfl
  have hsd : ∀ (μ : St α L) a f, (stopMover μ a f).1.detect = μ.detect := stopMover_detect
  have hfd : ∀ (l : List (Nat × Nat)) (μ : St α L), (find I l μ).1.detect = μ.detect := find_detect I
  cases o with
  | start a v ws =>
    have ha := ho a (.inr (.inr ⟨v, ws, rfl⟩))
    refine ⟨d, ?_, ?_, fun _ _ => rfl⟩
    · simp only [Queued.step, startMover]
      rw [show (re μ d).detect a = d a from rfl, hd a ha]
      rcases μ.detect a with _ | _ | _
      · rfl
      · rfl
      · dsimp only
        rw [show (re μ d).movers = μ.movers from rfl]
        split
        · rfl
        · exact find_re I _ { μ with movers := μ.movers.set a ⟨v, ws, μ.now⟩ } d
    · intro b hb
      rw [hd b hb]
      simp only [Queued.step, startMover]
      rcases μ.detect a with _ | _ | _
      · rfl
      · rfl
      · dsimp only
        split
        · rfl
        · rw [hfd]
  | stop a =>
    have ha := ho a (.inl rfl)
    refine ⟨d, hs μ d a false (hd a ha), fun b hb => ?_, fun _ _ => rfl⟩
    rw [hd b hb]
    simp only [Queued.step, hsd]
  | detect a v =>
    have ha := ho a (.inr (.inl ⟨v, rfl⟩))
    simp only [Queued.step, setDetect]
    rw [show (re μ d).detect a = d a from rfl, hd a ha]
    cases hm : μ.detect a with
    | none => exact ⟨d, rfl, fun b hb => hd b hb, fun _ _ => rfl⟩
    | some b =>
      dsimp only
      cases v with
      | true =>
        refine ⟨upd d a (some true), rfl, fun b hb => ?_, fun b hb => upd_ne _ _ (by omega)⟩
        simp only [if_true]
        by_cases hba : b = a
        · rw [hba, upd_self, upd_self]
        · rw [upd_ne _ _ hba, upd_ne _ _ hba, hd b hb]
      | false =>
        refine ⟨upd d a (some false), ?_, fun b hb => ?_, fun b hb => upd_ne _ _ (by omega)⟩
        · simp only [Bool.false_eq_true, if_false]
          exact hs { μ with detect := upd μ.detect a (some false), log := μ.log ++ (μ.inView a).map (fun s => ⟨μ.now, a, s, false⟩), inView := upd μ.inView a [] }
            (upd d a (some false)) a true (by rw [upd_self]; exact (upd_self _ _ _).symm)
        · simp only [Bool.false_eq_true, if_false, hsd]
          by_cases hba : b = a
          · rw [hba, upd_self, upd_self]
          · rw [upd_ne _ _ hba, upd_ne _ _ hba, hd b hb]
  | addSensor s =>
    refine ⟨d, ?_, ?_, fun _ _ => rfl⟩
    · exact find_re I _ { μ with sensors := if s ∈ μ.sensors then μ.sensors else μ.sensors ++ [s] } d
    · intro b hb
      simp only [Queued.step, addSensor, hfd]
      exact hd b hb
  | fire i =>
    refine ⟨d, fire_re μ d i, ?_, fun _ _ => rfl⟩
    intro b hb
    rw [hd b hb]
    have hae : ∀ (μ : St α L) i p, (afterEntry μ i p).1.detect = μ.detect := by
      intro μ i p; unfold afterEntry; split
      · rfl
      · split <;> rfl
    have hav : ∀ (μ : St α L) m s, (addToView μ m s).detect = μ.detect := by
      intro μ m s; unfold addToView; split <;> rfl
    simp only [Queued.step, fire]
    cases μ.procs[i]? with
    | none => rfl
    | some p =>
      dsimp only
      cases p.stage with
      | over => rfl
      | fresh =>
        dsimp only
        unfold begins
        split
        · dsimp only; rw [hae]; split
          · rw [hav]
          · rw [show ∀ (μ : St α L) m s e, (tell μ m s e).detect = μ.detect from fun _ _ _ _ => rfl, hav]
        · split <;> rfl
      | entry due =>
        dsimp only
        split
        · rfl
        · split
          · rw [hae, hav]; rfl
          · rfl
      | exit due =>
        dsimp only
        split
        · rfl
        · split
          · unfold leaves; dsimp only; split <;> rfl
          · rfl
  | advance t =>
    refine ⟨d, ?_, ?_, fun _ _ => rfl⟩
    · simp only [Queued.step]
      rw [show (re μ d).now = μ.now from rfl, show (re μ d).procs = μ.procs from rfl]
      split <;> rfl
    · intro b hb
      rw [hd b hb]
      simp only [Queued.step]
      split <;> rfl

/-- The manager knows nothing of `c`. -/
def NoKey (c : Nat) (μ : St α L) : Prop := μ.movers.has c = false ∧ μ.inView c = [] ∧ ∀ p ∈ μ.procs, p.mover ≠ c

theorem has_iff (d : Dict Nat (Trip α L)) (c : Nat) : d.has c = false ↔ ∀ k ∈ d.keys, k ≠ c := by
  induction d with
  | nil => simp [Dict.has, Dict.keys]
  | cons p d ih =>
    simp only [Dict.has, Dict.keys, List.map_cons, List.forall_mem_cons] at ih ⊢
    rw [Dict.get?_cons]
    split
    · rename_i h; simp [h]
    · rename_i h; rw [ih]; simp [h]

theorem has_set (d : Dict Nat (Trip α L)) (a c : Nat) (t) (h : c ≠ a) : (d.set a t).has c = d.has c := by
  simp only [Dict.has, Dict.get?_set, if_neg (Ne.symm h)]

theorem has_set_self (d : Dict Nat (Trip α L)) (a : Nat) (t) : (d.set a t).has a = true := by
  simp [Dict.has, Dict.get?_set]

theorem schedule_noKey (c m s : Nat) (h : m ≠ c) (μ : St α L) (p) (hk : NoKey c μ) : NoKey c (schedule m s μ p) := by
  unfold schedule
  split
  · exact hk
  · refine ⟨hk.1, hk.2.1, ?_⟩
    intro q hq
    rcases List.mem_append.1 hq with hq | hq
    · exact hk.2.2 q hq
    · rw [List.mem_singleton.1 hq]; exact h

theorem findOne_noKey (I : Inter α L) (c m s : Nat) (h : m ≠ c) (μ : St α L) (hk : NoKey c μ) : NoKey c (findOne I μ m s).1 := by
  unfold findOne
  cases μ.movers.get? m with
  | none => exact hk
  | some t =>
    dsimp only
    cases processPair I t s with
    | none => exact hk
    | some ps =>
      dsimp only
      induction ps generalizing μ with
      | nil => exact hk
      | cons p ps ih => exact ih _ (schedule_noKey c m s h μ p hk)

theorem find_noKey (I : Inter α L) (c : Nat) (l : List (Nat × Nat)) (hl : ∀ p ∈ l, p.1 ≠ c) (μ : St α L) (hk : NoKey c μ) : NoKey c (find I l μ).1 := by
  induction l generalizing μ with
  | nil => exact hk
  | cons p l ih =>
    obtain ⟨m, s⟩ := p
    rw [find_cons]
    have h1 := findOne_noKey I c m s (hl (m, s) (by simp)) μ hk
    split
    · exact ih (fun p hp => hl p (by simp [hp])) _ h1
    · exact h1

theorem taken_noKey (c a : Nat) (μ : St α L) (hk : NoKey c μ) : NoKey c (taken μ a) := by
  refine ⟨?_, hk.2.1, ?_⟩
  · have := (has_iff _ _).1 hk.1
    refine (has_iff _ _).2 fun k hkk => this k ?_
    simp only [taken, Dict.keys, Dict.del] at hkk ⊢
    obtain ⟨p, hp, rfl⟩ := List.mem_map.1 hkk
    exact List.mem_map.2 ⟨p, (List.mem_filter.1 hp).1, rfl⟩
  · intro p hp
    obtain ⟨i, hi⟩ := List.mem_iff_getElem?.1 hp
    simp only [taken, interrupt, List.getElem?_mapIdx] at hi
    cases hq : μ.procs[i]? with
    | none => simp [hq] at hi
    | some q =>
      have := hk.2.2 q (List.mem_of_getElem? hq)
      rw [hq] at hi
      simp only [Option.map_some, Option.some.injEq] at hi
      rw [← hi]
      split <;> exact this

theorem stopMover_noKey (c a : Nat) (f : Bool) (μ : St α L) (hk : NoKey c μ) : NoKey c (stopMover μ a f).1 := by
  unfold stopMover
  cases μ.detect a with
  | none => exact hk
  | some b =>
    dsimp only
    split
    · exact hk
    · split
      · exact hk
      · split
        · exact hk
        · exact taken_noKey c a μ hk

theorem setProc_noKey (c : Nat) (μ : St α L) (i : Nat) (p : Proc α) (hp : p.mover ≠ c) (hk : NoKey c μ) : NoKey c (setProc μ i p) := by
  refine ⟨hk.1, hk.2.1, ?_⟩
  intro q hq
  rcases List.mem_or_eq_of_mem_set hq with h | h
  · exact hk.2.2 q h
  · rw [h]; exact hp

theorem addToView_noKey (c : Nat) (μ : St α L) (m s : Nat) (hm : m ≠ c) (hk : NoKey c μ) : NoKey c (addToView μ m s) := by
  unfold addToView
  split
  · exact hk
  · refine ⟨hk.1, ?_, hk.2.2⟩
    show upd μ.inView m _ c = []
    rw [upd_ne _ _ hm.symm]; exact hk.2.1

theorem afterEntry_noKey (c : Nat) (μ : St α L) (i : Nat) (p : Proc α) (hp : p.mover ≠ c) (hk : NoKey c μ) : NoKey c (afterEntry μ i p).1 := by
  unfold afterEntry
  split
  · exact setProc_noKey c μ i _ hp hk
  · split <;> exact setProc_noKey c μ i _ hp hk

theorem fire_noKey (c : Nat) (μ : St α L) (i : Nat) (hk : NoKey c μ) : NoKey c (fire μ i).1 := by
  unfold fire
  cases hi : μ.procs[i]? with
  | none => exact hk
  | some p =>
    have hp := hk.2.2 p (List.mem_of_getElem? hi)
    dsimp only
    cases p.stage with
    | over => exact hk
    | fresh =>
      dsimp only
      unfold begins
      split
      · dsimp only
        refine afterEntry_noKey c _ i p hp ?_
        have := addToView_noKey c μ p.mover p.sensor hp hk
        split
        · exact this
        · exact this
      · split <;> exact setProc_noKey c μ i _ hp hk
    | entry due =>
      dsimp only
      split
      · exact setProc_noKey c μ i _ hp hk
      · split
        · exact afterEntry_noKey c _ i p hp (addToView_noKey c _ _ _ hp hk)
        · exact hk
    | exit due =>
      dsimp only
      split
      · exact setProc_noKey c μ i _ hp hk
      · split
        · unfold leaves
          dsimp only
          have h1 : NoKey c (setProc (tell μ p.mover p.sensor false) i { p with stage := .over }) := setProc_noKey c _ i _ hp hk
          split
          · refine ⟨h1.1, ?_, h1.2.2⟩
            show upd μ.inView p.mover _ c = []
            rw [upd_ne _ _ hp.symm]; exact hk.2.1
          · exact h1
        · exact hk

theorem step_noKey (I : Inter α L) (c : Nat) (μ : St α L) (hk : NoKey c μ) (o : Queued.Op α L)
    (ho : o ≠ .stop c ∧ (∀ v, o ≠ .detect c v) ∧ ∀ v ws, o ≠ .start c v ws) : NoKey c (Queued.step I μ o).1 := by
  cases o with
  | start a v ws =>
    have ha : a ≠ c := fun h => ho.2.2 v ws (by rw [h])
    simp only [Queued.step, startMover]
    have hset : ∀ t, NoKey c { μ with movers := μ.movers.set a t } := fun t => ⟨by rw [has_set _ _ _ _ ha.symm]; exact hk.1, hk.2⟩
    rcases μ.detect a with _ | _ | _
    · exact hk
    · exact hset _
    · dsimp only
      split
      · exact hk
      · refine find_noKey I c _ ?_ _ (hset _)
        intro p hp
        obtain ⟨s, -, rfl⟩ := List.mem_map.1 hp
        exact ha
  | stop a => exact stopMover_noKey c a _ μ hk
  | detect a v =>
    have ha : a ≠ c := fun h => ho.2.1 v (by rw [h])
    simp only [Queued.step, setDetect]
    cases μ.detect a with
    | none => exact hk
    | some b =>
      dsimp only
      split
      · exact hk
      · refine stopMover_noKey c a _ _ ⟨hk.1, ?_, hk.2.2⟩
        show upd μ.inView a [] c = []
        rw [upd_ne _ _ ha.symm]; exact hk.2.1
  | addSensor s =>
    refine find_noKey I c _ ?_ _ hk
    intro p hp
    obtain ⟨m, hm, rfl⟩ := List.mem_map.1 hp
    exact (has_iff _ _).1 hk.1 m hm
  | fire i => exact fire_noKey c μ i hk
  | advance t =>
    simp only [Queued.step]
    split <;> exact hk

/-- Setting the detectability of an actor of which the manager knows nothing changes nothing else. -/
theorem setDetect_noKey (c : Nat) (v : Bool) (μ : St α L) (hk : NoKey c μ) : ∃ d, (setDetect μ c v).1 = re μ d ∧ ∀ a, a ≠ c → d a = μ.detect a := by
  unfold setDetect
  cases hm : μ.detect c with
  | none => exact ⟨μ.detect, rfl, fun _ _ => rfl⟩
  | some b =>
    refine ⟨upd μ.detect c (some v), ?_, fun a ha => upd_ne _ _ ha⟩
    dsimp only
    split
    · rfl
    · rename_i hv
      have hv : v = false := by simpa using hv
      have hin : upd μ.inView c [] = μ.inView := by
        funext a
        by_cases h : a = c
        · rw [h, upd_self, hk.2.1]
        · rw [upd_ne _ _ h]
      simp only [stopMover, upd_self, hk.1, hk.2.1, hin, hv, List.map_nil, List.append_nil]
      simp [re]

end Verif.Drive
