import Verif.Queued.Cex

/-! # C43 when a mover is stopped and starts again at once

The processes of the first trip are interrupted but have not ended when the second begins. A state in which such processes are still
pending behaves like the state in which they have ended. -/

namespace Verif.Queued

open Verif.Sphere (Tag)

variable {α L : Type} [Field α] [LinearOrder α]

/-- An interrupted process which has begun and not ended. -/
def Doomed (p : Proc α) : Prop := p.intr = true ∧ p.stage ≠ .fresh

/-- The same process, or it has ended in `q` and is about to end in `p`. -/
def SameProc (p q : Proc α) : Prop := p = q ∨ (Doomed p ∧ q = { p with stage := .over })

/-- The states differ only in doomed processes, which have ended in the second. -/
structure Sim (σ τ : St α L) : Prop where
  now : τ.now = σ.now
  detect : τ.detect = σ.detect
  sensors : τ.sensors = σ.sensors
  movers : τ.movers = σ.movers
  events : τ.events = σ.events
  inView : τ.inView = σ.inView
  log : τ.log = σ.log
  procs : List.Forall₂ SameProc σ.procs τ.procs

theorem SameProc.refl (p : Proc α) : SameProc p p := .inl rfl

theorem Sim.refl (σ : St α L) : Sim σ σ := ⟨rfl, rfl, rfl, rfl, rfl, rfl, rfl, List.forall₂_same.2 fun p _ => .refl p⟩

theorem Sim.cases {σ τ : St α L} (h : Sim σ τ) : ∃ l, τ = { σ with procs := l } ∧ List.Forall₂ SameProc σ.procs l := by
  obtain ⟨n, d, a, b, e, v, l, g⟩ := τ
  obtain ⟨h1, h2, h3, h4, h5, h6, h7, h8⟩ := h
  dsimp only at h1 h2 h3 h4 h5 h6 h7 h8
  subst h1 h2 h3 h4 h5 h6 h7
  exact ⟨l, rfl, h8⟩

theorem Sim.get {σ τ : St α L} (h : Sim σ τ) (i : Nat) :
    (σ.procs[i]? = none ∧ τ.procs[i]? = none) ∨ ∃ p q, σ.procs[i]? = some p ∧ τ.procs[i]? = some q ∧ SameProc p q := by
  obtain ⟨hl, hg⟩ := List.forall₂_iff_get.1 h.procs
  by_cases hi : i < σ.procs.length
  · have hi' : i < τ.procs.length := hl ▸ hi
    exact .inr ⟨σ.procs[i], τ.procs[i], List.getElem?_eq_getElem hi, List.getElem?_eq_getElem hi', hg i hi hi'⟩
  · exact .inl ⟨List.getElem?_eq_none (by omega), List.getElem?_eq_none (by omega)⟩

theorem forall₂_set {R : Proc α → Proc α → Prop} : ∀ {l l' : List (Proc α)}, List.Forall₂ R l l' → ∀ (i : Nat) {p q : Proc α}, R p q → List.Forall₂ R (l.set i p) (l'.set i q)
  | _, _, .nil, _, _, _, _ => .nil
  | _, _, .cons _ h2, 0, _, _, hpq => .cons hpq h2
  | _, _, .cons h1 h2, _ + 1, _, _, hpq => .cons h1 (forall₂_set h2 _ hpq)

theorem Sim.setProc {σ τ : St α L} (h : Sim σ τ) (i : Nat) (p : Proc α) : Sim (setProc σ i p) (setProc τ i p) :=
  ⟨h.now, h.detect, h.sensors, h.movers, h.events, h.inView, h.log, forall₂_set h.procs i (.refl p)⟩

theorem Sim.schedule {σ τ : St α L} (h : Sim σ τ) (m s : Nat) (e : Entry α × Entry α) : Sim (schedule m s σ e) (schedule m s τ e) := by
  obtain ⟨l, rfl, hp⟩ := h.cases
  unfold Queued.schedule
  dsimp only
  split
  · exact h
  · exact ⟨rfl, rfl, rfl, rfl, by dsimp only; rw [hp.length_eq], rfl, rfl, List.rel_append hp (.cons (.refl _) .nil)⟩

theorem Sim.scheduleAll (m s : Nat) : ∀ (ps : List (Entry α × Entry α)) {σ τ : St α L}, Sim σ τ →
    Sim (ps.foldl (Queued.schedule m s) σ) (ps.foldl (Queued.schedule m s) τ)
  | [], _, _, h => h
  | e :: ps, _, _, h => Sim.scheduleAll m s ps (h.schedule m s e)

theorem Sim.findOne (I : Inter α L) {σ τ : St α L} (h : Sim σ τ) (m s : Nat) :
    Sim (findOne I σ m s).1 (findOne I τ m s).1 ∧ (findOne I τ m s).2 = (findOne I σ m s).2 := by
  unfold Queued.findOne
  rw [h.movers]
  cases σ.movers.get? m with
  | none => exact ⟨h, rfl⟩
  | some t =>
    dsimp only
    cases processPair I t s with
    | none => exact ⟨h, rfl⟩
    | some ps => exact ⟨Sim.scheduleAll m s ps h, rfl⟩

theorem Sim.find (I : Inter α L) : ∀ (l : List (Nat × Nat)) {σ τ : St α L}, Sim σ τ → Sim (find I l σ).1 (find I l τ).1 ∧ (find I l τ).2 = (find I l σ).2
  | [], _, _, h => ⟨h, rfl⟩
  | (m, s) :: l, σ, τ, h => by
    obtain ⟨h1, h2⟩ := h.findOne I m s
    unfold Queued.find
    rcases hσ : Queued.findOne I σ m s with ⟨σ', o⟩
    rcases hτ : Queued.findOne I τ m s with ⟨τ', o'⟩
    rw [hσ, hτ] at h1 h2
    dsimp only at h1 h2
    subst h2
    cases o' with
    | ok => exact Sim.find I l h1
    | error => exact ⟨h1, rfl⟩
    | refused => exact ⟨h1, rfl⟩

theorem Sim.taken {σ τ : St α L} (h : Sim σ τ) (m : Nat) : Sim (taken σ m) (taken τ m) := by
  refine ⟨h.now, h.detect, h.sensors, ?_, ?_, h.inView, h.log, ?_⟩
  · simp only [Queued.taken, h.movers]
  · simp only [Queued.taken, h.events]
  · simp only [Queued.taken, h.events, interrupt]
    obtain ⟨hl, hg⟩ := List.forall₂_iff_get.1 h.procs
    refine List.forall₂_iff_get.2 ⟨by simpa using hl, fun i h1 h2 => ?_⟩
    simp only [List.length_mapIdx] at h1 h2
    have := hg i h1 h2
    simp only [List.get_eq_getElem, List.getElem_mapIdx] at this ⊢
    rcases this with he | ⟨hd, he⟩
    · rw [he]; exact .refl _
    · rw [he]
      right
      split
      · rw [if_neg (by simp)]
        exact ⟨⟨rfl, hd.2⟩, by rw [hd.1]⟩
      · rw [if_neg (by simp)]
        exact ⟨hd, rfl⟩

theorem Sim.stopMover {σ τ : St α L} (h : Sim σ τ) (m : Nat) (b : Bool) :
    Sim (stopMover σ m b).1 (stopMover τ m b).1 ∧ (stopMover τ m b).2 = (stopMover σ m b).2 := by
  have ht := h.taken m
  obtain ⟨l, rfl, hp⟩ := h.cases
  unfold Queued.taken at ht
  unfold Queued.stopMover
  dsimp only at ht ⊢
  cases σ.detect m with
  | none => exact ⟨h, rfl⟩
  | some d =>
    dsimp only
    repeat' split
    · exact ⟨h, rfl⟩
    · exact ⟨h, rfl⟩
    · exact ⟨h, rfl⟩
    · exact ⟨ht, rfl⟩

theorem Sim.afterEntry {σ τ : St α L} (h : Sim σ τ) (i : Nat) (p : Proc α) :
    Sim (afterEntry σ i p).1 (afterEntry τ i p).1 ∧ (afterEntry τ i p).2 = (afterEntry σ i p).2 := by
  unfold Queued.afterEntry
  rw [h.now]
  repeat' split
  all_goals exact ⟨h.setProc i _, rfl⟩

theorem Sim.addToView {σ τ : St α L} (h : Sim σ τ) (m s : Nat) : Sim (addToView σ m s) (addToView τ m s) := by
  unfold Queued.addToView
  rw [h.inView]
  split
  · exact h
  · exact ⟨h.now, h.detect, h.sensors, h.movers, h.events, rfl, h.log, h.procs⟩

theorem Sim.tell {σ τ : St α L} (h : Sim σ τ) (m s : Nat) (b : Bool) : Sim (tell σ m s b) (tell τ m s b) :=
  ⟨h.now, h.detect, h.sensors, h.movers, h.events, h.inView, by simp only [Queued.tell, h.log, h.now], h.procs⟩

theorem Sim.begins {σ τ : St α L} (h : Sim σ τ) (i : Nat) (p : Proc α) :
    Sim (begins σ i p).1 (begins τ i p).1 ∧ (begins τ i p).2 = (begins σ i p).2 := by
  unfold Queued.begins
  rw [h.now]
  split
  · dsimp only
    rw [h.inView]
    split
    · exact (h.addToView _ _).afterEntry i p
    · exact ((h.addToView _ _).tell _ _ _).afterEntry i p
  · split
    all_goals exact ⟨h.setProc i _, rfl⟩

theorem Sim.leaves {σ τ : St α L} (h : Sim σ τ) (i : Nat) (p : Proc α) :
    Sim (leaves σ i p).1 (leaves τ i p).1 ∧ (leaves τ i p).2 = (leaves σ i p).2 := by
  have hs := (h.tell p.mover p.sensor false).setProc i { p with stage := .over }
  unfold Queued.leaves
  dsimp only
  rw [h.inView]
  split
  · exact ⟨⟨hs.now, hs.detect, hs.sensors, hs.movers, hs.events, rfl, hs.log, hs.procs⟩, rfl⟩
  · exact ⟨hs, rfl⟩

/-- A doomed process ends when it is resumed. -/
theorem fire_doomed (σ : St α L) (i : Nat) (p : Proc α) (hp : σ.procs[i]? = some p) (hd : Doomed p) :
    fire σ i = (setProc σ i { p with stage := .over }, if p.stage = .over then .refused else .ok) := by
  obtain ⟨m, s, a, b, st, intr⟩ := p
  obtain ⟨h1, h2⟩ := hd
  dsimp only at h1 h2
  subst h1
  obtain ⟨hi, hpe⟩ := List.getElem?_eq_some_iff.1 hp
  unfold fire
  rw [hp]
  cases st with
  | fresh => exact absurd rfl h2
  | over =>
    have : σ.procs.set i ⟨m, s, a, b, .over, true⟩ = σ.procs := by rw [← hpe]; exact List.set_getElem_self hi
    simp only [Queued.setProc, this, if_true]
  | entry due => simp
  | exit due => simp

/-- Firing: the same in both, or nothing in the second. -/
theorem Sim.fire {σ τ : St α L} (h : Sim σ τ) (i : Nat) :
    (Sim (fire σ i).1 (fire τ i).1 ∧ (fire τ i).2 = (fire σ i).2) ∨ (Sim (fire σ i).1 τ ∧ (fire σ i).2 ≠ .error) := by
  rcases h.get i with ⟨h1, h2⟩ | ⟨p, q, h1, h2, rfl | ⟨hd, rfl⟩⟩
  · left
    unfold Queued.fire
    rw [h1, h2]
    exact ⟨h, rfl⟩
  · left
    unfold Queued.fire
    rw [h1, h2]
    dsimp only
    cases p.stage with
    | over => exact ⟨h, rfl⟩
    | fresh => exact h.begins i p
    | entry due =>
      dsimp only
      rw [h.now]
      repeat' split
      · exact ⟨h.setProc i _, rfl⟩
      · exact ((h.tell _ _ _).addToView _ _).afterEntry i p
      · exact ⟨h, rfl⟩
    | exit due =>
      dsimp only
      rw [h.now]
      repeat' split
      · exact ⟨h.setProc i _, rfl⟩
      · exact h.leaves i p
      · exact ⟨h, rfl⟩
  · right
    rw [fire_doomed σ i p h1 hd]
    refine ⟨⟨h.now, h.detect, h.sensors, h.movers, h.events, h.inView, h.log, ?_⟩, by dsimp only; split <;> simp⟩
    have := forall₂_set h.procs i (SameProc.refl { p with stage := Stage.over })
    obtain ⟨hi, hpe⟩ := List.getElem?_eq_some_iff.1 h2
    have hτ : τ.procs.set i { p with stage := .over } = τ.procs := by rw [← hpe]; exact List.set_getElem_self hi
    rw [hτ] at this
    exact this

theorem idle_same {t : α} {l l' : List (Proc α)} (h : List.Forall₂ SameProc l l') (hi : ∀ p ∈ l, Idle t p) : l = l' := by
  induction h with
  | nil => rfl
  | @cons p q l l' h1 _ ih =>
    have ih := ih fun x hx => hi x (List.mem_cons_of_mem _ hx)
    subst ih
    rcases h1 with rfl | ⟨⟨h1, h2⟩, rfl⟩
    · rfl
    · have := hi p (List.mem_cons_self ..)
      obtain ⟨m, s, a, b, st, intr⟩ := p
      dsimp only at h1 h2
      subst h1
      cases st with
      | fresh => exact absurd rfl h2
      | over => rfl
      | entry due => simp [Idle] at this
      | exit due => simp [Idle] at this

theorem Sim.start (I : Inter α L) {σ τ : St α L} (h : Sim σ τ) (m : Nat) (speed : α) (ws : List L) :
    Sim (Queued.step I σ (.start m speed ws)).1 (Queued.step I τ (.start m speed ws)).1 ∧
    (Queued.step I τ (.start m speed ws)).2 = (Queued.step I σ (.start m speed ws)).2 := by
  obtain ⟨l, rfl, hp⟩ := h.cases
  simp only [Queued.step, startMover]
  cases σ.detect m with
  | none => exact ⟨h, rfl⟩
  | some b =>
    cases b with
    | false => exact ⟨⟨rfl, rfl, rfl, rfl, rfl, rfl, rfl, hp⟩, rfl⟩
    | true =>
      dsimp only
      split
      · exact ⟨h, rfl⟩
      · exact Sim.find I _ ⟨rfl, rfl, rfl, rfl, rfl, rfl, rfl, hp⟩

/-- One step: the same in both, or nothing in the second. -/
theorem Sim.step (I : Inter α L) {σ τ : St α L} (h : Sim σ τ) (o : Op α L) : ∃ l, (l = [o] ∨ l = []) ∧ Sim (step I σ o).1 (run I τ l) := by
  cases o with
  | start m speed ws =>
    exact ⟨_, .inl rfl, (h.start I m speed ws).1⟩
  | stop m => exact ⟨_, .inl rfl, (h.stopMover m false).1⟩
  | detect m v =>
    refine ⟨_, .inl rfl, ?_⟩
    obtain ⟨l, rfl, hp⟩ := h.cases
    simp only [run, Queued.step, setDetect]
    cases σ.detect m with
    | none => exact h
    | some b =>
      dsimp only
      split
      · exact ⟨rfl, rfl, rfl, rfl, rfl, rfl, rfl, hp⟩
      · refine (Sim.stopMover ?_ m true).1
        exact ⟨rfl, rfl, rfl, rfl, rfl, rfl, rfl, hp⟩
  | addSensor s =>
    refine ⟨_, .inl rfl, ?_⟩
    obtain ⟨l, rfl, hp⟩ := h.cases
    simp only [run, Queued.step, addSensor]
    refine (Sim.find I _ ?_).1
    exact ⟨rfl, rfl, rfl, rfl, rfl, rfl, rfl, hp⟩
  | fire i =>
    rcases h.fire i with ⟨h1, -⟩ | ⟨h1, -⟩
    · exact ⟨_, .inl rfl, h1⟩
    · exact ⟨_, .inr rfl, h1⟩
  | advance t =>
    simp only [Queued.step]
    split
    · rename_i hc
      have he := idle_same h.procs hc.2
      refine ⟨_, .inl rfl, ?_⟩
      simp only [run, Queued.step, h.now, ← he, if_pos hc]
      exact ⟨rfl, h.detect, h.sensors, h.movers, h.events, h.inView, h.log, List.forall₂_same.2 fun p _ => .refl p⟩
    · exact ⟨_, .inr rfl, h⟩

theorem run_app (I : Inter α L) : ∀ (l l' : List (Op α L)) (σ : St α L), run I σ (l ++ l') = run I (run I σ l) l'
  | [], _, _ => rfl
  | _ :: l, l', _ => run_app I l l' _

/-- A run: a part of it in the second. -/
theorem Sim.run (I : Inter α L) : ∀ (ops : List (Op α L)) {σ τ : St α L}, Sim σ τ → ∃ ops', (∀ o ∈ ops', o ∈ ops) ∧ Sim (run I σ ops) (run I τ ops')
  | [], _, _, h => ⟨[], by simp, h⟩
  | o :: ops, σ, τ, h => by
    obtain ⟨l, hl, h1⟩ := h.step I o
    obtain ⟨ops', h2, h3⟩ := Sim.run I ops h1
    refine ⟨l ++ ops', fun x hx => ?_, by rw [run_app]; exact h3⟩
    rcases List.mem_append.1 hx with hx | hx
    · rcases hl with rfl | rfl
      · rw [List.mem_singleton.1 hx]; exact List.mem_cons_self ..
      · cases hx
    · exact List.mem_cons_of_mem _ (h2 x hx)

/-- Firing the doomed processes of a mover and a sensor one after another, they have ended. -/
theorem bury (I : Inter α L) (m s : Nat) : ∀ (n : Nat) (σ : St α L), Dead σ m s → n ≤ σ.procs.length → ∃ (is : List Nat) (τ : St α L),
    τ = run I σ (is.map .fire) ∧ Sim σ τ ∧ Dead τ m s ∧ ∀ (i : Nat) (p : Proc α), i < n → τ.procs[i]? = some p → p.mover = m → p.sensor = s → p.stage = .over
  | 0, σ, hd, _ => ⟨[], σ, rfl, .refl σ, hd, fun i _ hi => absurd hi (Nat.not_lt_zero i)⟩
  | n + 1, σ, hd, hn => by
    obtain ⟨is, τ, hτ, hs, hdτ, hov⟩ := bury I m s n σ hd (by omega)
    have hlen : n < τ.procs.length := by rw [← hs.procs.length_eq]; omega
    obtain ⟨p, hp⟩ : ∃ p, τ.procs[n]? = some p := ⟨_, List.getElem?_eq_getElem hlen⟩
    by_cases hc : (p.mover = m ∧ p.sensor = s) ∧ p.stage ≠ .over
    · obtain ⟨⟨h1, h2⟩, h3⟩ := hc
      have hdoom : Doomed p := (hdτ p (List.mem_of_getElem? hp) h1 h2).resolve_left h3
      have hf := fire_doomed τ n p hp hdoom
      refine ⟨is ++ [n], setProc τ n { p with stage := .over }, ?_, ?_, ?_, ?_⟩
      · rw [List.map_append, run_app, ← hτ]
        simp only [List.map_cons, List.map_nil, Queued.run, Queued.step, hf]
      · refine ⟨hs.now, hs.detect, hs.sensors, hs.movers, hs.events, hs.inView, hs.log, ?_⟩
        obtain ⟨p₀, q, hp₀, hq, hpq⟩ := (hs.get n).resolve_left fun hc => by rw [hp] at hc; simp at hc
        obtain rfl : q = p := by rw [hp] at hq; exact (Option.some.inj hq).symm
        obtain ⟨hi, hpe⟩ := List.getElem?_eq_some_iff.1 hp₀
        have hσ : σ.procs.set n p₀ = σ.procs := by rw [← hpe]; exact List.set_getElem_self hi
        have := forall₂_set (R := SameProc) hs.procs n (p := p₀) (q := { q with stage := .over }) (by
          rcases hpq with rfl | ⟨h4, h5⟩
          · exact .inr ⟨hdoom, rfl⟩
          · exact absurd (by rw [h5]) h3)
        rw [hσ] at this
        exact this
      · intro q hq hm hs'
        rcases List.mem_or_eq_of_mem_set hq with hq | rfl
        · exact hdτ q hq hm hs'
        · exact .inl rfl
      · intro i q hi hq hm hs'
        simp only [Queued.setProc, List.getElem?_set] at hq
        split at hq
        · rw [← Option.some.inj hq]
        · rename_i hne
          exact hov i q (by omega) hq hm hs'
    · refine ⟨is, τ, hτ, hs, hdτ, fun i q hi hq hm hs' => ?_⟩
      by_cases hin : i = n
      · subst hin
        obtain rfl : q = p := by rw [hp] at hq; exact (Option.some.inj hq).symm
        by_contra h3
        exact hc ⟨⟨hm, hs'⟩, h3⟩
      · exact hov i q (by omega) hq hm hs'

/-- A state reachable from this one, differing from it only in that the doomed processes of the mover and the sensor have ended. -/
theorem Dead.buried (I : Inter α L) {σ : St α L} {m s : Nat} (h : Dead σ m s) :
    ∃ is : List Nat, Sim σ (Queued.run I σ (is.map .fire)) ∧ Quiet (Queued.run I σ (is.map .fire)) m s := by
  obtain ⟨is, τ, rfl, hs, -, hov⟩ := bury I m s σ.procs.length σ h (le_refl _)
  refine ⟨is, hs, fun p hp h1 h2 => ?_⟩
  obtain ⟨i, hi⟩ := List.mem_iff_getElem?.1 hp
  exact hov i p (by rw [hs.procs.length_eq]; exact (List.getElem?_eq_some_iff.1 hi).1) hi h1 h2

theorem Sim.told {σ τ : St α L} (h : Sim σ τ) (m s : Nat) : Queued.told τ m s = Queued.told σ m s := by
  unfold Queued.told
  rw [h.log]

theorem Sim.noError {σ τ : St α L} (h : Sim σ τ) (m s : Nat)
    (hτ : ∀ (i : Nat) (p : Proc α), τ.procs[i]? = some p → p.mover = m → p.sensor = s → (Queued.fire τ i).2 ≠ .error) :
    ∀ (i : Nat) (p : Proc α), σ.procs[i]? = some p → p.mover = m → p.sensor = s → (Queued.fire σ i).2 ≠ .error := by
  intro i p hp h1 h2
  rcases h.fire i with ⟨-, h3⟩ | ⟨-, h3⟩
  · obtain ⟨p', q, hp', hq, hpq⟩ := (h.get i).resolve_left fun hc => by rw [hp] at hc; simp at hc
    obtain rfl : p' = p := by rw [hp] at hp'; exact (Option.some.inj hp').symm
    rw [← h3]
    refine hτ i q hq ?_ ?_ <;> rcases hpq with rfl | ⟨-, rfl⟩ <;> assumption
  · exact h3

theorem Quiet.dead {σ : St α L} {m s : Nat} (h : Quiet σ m s) : Dead σ m s := fun p hp h1 h2 => .inl (h p hp h1 h2)

/-- What follows a start when the processes of earlier trips are interrupted is also what follows it when they have ended. -/
theorem Dead.restart (I : Inter α L) (t0 : α) (det : Nat → Option Bool) (ops₀ : List (Op α L)) (σ : St α L) (hσ : σ = Queued.run I (St.init t0 det) ops₀)
    (m s : Nat) (speed : α) (ws : List L) (hq : Dead σ m s) (hok : (Queued.step I σ (.start m speed ws)).2 = .ok) :
    ∃ (ops₁ : List (Op α L)) (τ : St α L), τ = Queued.run I (St.init t0 det) ops₁ ∧ Sim σ τ ∧ Quiet τ m s ∧ (Queued.step I τ (.start m speed ws)).2 = .ok ∧
      ∀ ops : List (Op α L), (∀ o ∈ ops, Foreign m s o) → ∃ ops' : List (Op α L), (∀ o ∈ ops', Foreign m s o) ∧
        Sim (Queued.run I (Queued.step I σ (.start m speed ws)).1 ops) (Queued.run I (Queued.step I τ (.start m speed ws)).1 ops') := by
  obtain ⟨is, hsim, hquiet⟩ := hq.buried I
  obtain ⟨h1, h2⟩ := hsim.start I m speed ws
  refine ⟨ops₀ ++ is.map .fire, _, by rw [run_app, ← hσ], hsim, hquiet, by rw [h2]; exact hok, fun ops hops => ?_⟩
  obtain ⟨ops', hsub, hrun⟩ := h1.run I ops
  exact ⟨ops', fun o ho => hops o (hsub o ho), hrun⟩

section Trips

variable [IsStrictOrderedRing α]

/-- What is proved of the state in which the interrupted processes have ended holds of this one. -/
theorem Sim.served {σ τ : St α L} (h : Sim σ τ) {m s : Nat} {inside : α → Prop} {tc hi : α} {was : Bool} {l0 : List (α × Bool)}
    (hτ : Served m s inside tc hi was l0 τ) : Served m s inside tc hi was l0 σ := by
  obtain ⟨h1, h2, h3, h4⟩ := hτ
  rw [h.told, h.now] at h1
  rw [h.now, h.inView] at h2 h3
  exact ⟨h1, h2, h3, h.noError m s h4⟩

/-- **C43 for a trip**, as `c43_trip_partial`, when the processes of earlier trips for this sensor have ended or have been interrupted. -/
theorem c43_restart_partial (I : Inter α L) (t0 : α) (det : Nat → Option Bool) (ops₀ : List (Op α L)) (σ : St α L) (hσ : σ = run I (St.init t0 det) ops₀)
    (m s : Nat) (speed : α) (ws : List L) (hdet : σ.detect m = some true) (hs : s ∈ σ.sensors)
    (hq : Dead σ m s)
    (hok : (step I σ (.start m speed ws)).2 = .ok) (inside : α → Prop) (Ds : List α) (hDs : Ds ≠ []) (hI : ExactPath I speed s inside ws Ds σ.now)
    (hn : NoTouch inside σ.now (σ.now + Ds.sum)) (hwas : s ∈ σ.inView m → inside σ.now ∧ 0 ≤ Ds.sum)
    (ops : List (Op α L)) (hops : ∀ o ∈ ops, Foreign m s o) :
    Served m s inside σ.now (σ.now + Ds.sum) (decide (s ∈ σ.inView m)) (told σ m s) (run I (step I σ (.start m speed ws)).1 ops) := by
  obtain ⟨ops₁, τ, hτ, hsim, hquiet, hok', hall⟩ := Dead.restart I t0 det ops₀ σ hσ m s speed ws hq hok
  obtain ⟨ops', hops', hrun⟩ := hall ops hops
  have hserved := c43_trip_partial I t0 det ops₁ τ hτ m s speed ws (by rw [hsim.detect]; exact hdet) (by rw [hsim.sensors]; exact hs) hquiet
    hok' inside Ds hDs (by rw [hsim.now]; exact hI) (by rw [hsim.now]; exact hn) (by rw [hsim.now, hsim.inView]; exact hwas) ops' hops'
  rw [hsim.now, hsim.told, hsim.inView] at hserved
  exact hrun.served hserved

/-- **C43, changing course.** A mover on its way, all of whose processes for the sensor have begun, is stopped and at once starts on
another path, as `Actor.interrupt` followed by a new task does: the sensor is told right of the new path from then on. If it had the
mover in view it is not told of an entry again, only of the exit on the new path. -/
theorem c43_course_partial (I : Inter α L) (t0 : α) (det : Nat → Option Bool) (ops₀ : List (Op α L)) (σ : St α L) (hσ : σ = run I (St.init t0 det) ops₀)
    (m s : Nat) (speed : α) (ws : List L) (hdet : σ.detect m = some true) (hm : σ.movers.has m = true) (hs : s ∈ σ.sensors)
    (hf : ∀ p ∈ σ.procs, p.mover = m → p.sensor = s → p.stage ≠ .fresh)
    (hok : (step I (step I σ (.stop m)).1 (.start m speed ws)).2 = .ok) (inside : α → Prop) (Ds : List α) (hDs : Ds ≠ [])
    (hI : ExactPath I speed s inside ws Ds σ.now) (hn : NoTouch inside σ.now (σ.now + Ds.sum)) (hwas : s ∈ σ.inView m → inside σ.now ∧ 0 ≤ Ds.sum)
    (ops : List (Op α L)) (hops : ∀ o ∈ ops, Foreign m s o) :
    (step I σ (.stop m)).2 = .ok ∧
    Served m s inside σ.now (σ.now + Ds.sum) (decide (s ∈ σ.inView m)) (told σ m s) (run I σ (.stop m :: .start m speed ws :: ops)) := by
  have hl : Live σ := hσ ▸ run_live I ops₀ _ (init_wf t0 det) (init_live t0 det)
  have hstep : step I σ (.stop m) = (taken σ m, .ok) := by simp [step, stopMover, hdet, hm, taken]
  refine ⟨by rw [hstep], ?_⟩
  simp only [run]
  rw [hstep] at hok ⊢
  refine c43_restart_partial I t0 det (ops₀ ++ [.stop m]) (taken σ m) ?_ m s speed ws hdet hs (taken_dead σ m s hl hf) hok inside Ds hDs hI hn hwas ops hops
  rw [run_app, ← hσ]
  simp only [run, hstep]

end Trips

/-! ### A concrete change of course

The mover on its way from -3 to 3 and back to 0 is stopped at 0, in range, at time 3 and goes to 3 again. -/

/-- The state in which the mover is stopped. -/
def line3 : St ℚ ℚ := run lineI line0 [.start 1 1 [-3, 3, 0], .fire 0, .fire 1, .advance 2, .fire 0, .advance 3]

/-- The hypotheses of `c43_course_partial` are met, and with them those of `c43_restart_partial`, the processes of the first trip being
interrupted and not ended. -/
example (ops : List (Op ℚ ℚ)) (hops : ∀ o ∈ ops, Foreign 1 7 o) :
    Served 1 7 (· ≤ (4 : ℚ)) 3 6 true [(2, true)] (run lineI line3 (.stop 1 :: .start 1 1 [0, 3] :: ops)) := by
  have e1 : line3.now = 3 := by decide +kernel
  have e2 : decide (7 ∈ line3.inView 1) = true := by decide +kernel
  have e3 : told line3 1 7 = [(2, true)] := by decide +kernel
  have e4 : line3.now + ([3] : List ℚ).sum = 6 := by rw [e1]; norm_num
  have h := (c43_course_partial lineI 0 _ [.addSensor 7, .start 1 1 [-3, 3, 0], .fire 0, .fire 1, .advance 2, .fire 0, .advance 3] line3 rfl 1 7 1 [0, 3]
    (by decide +kernel) (by decide +kernel) (by decide +kernel) (by decide +kernel) (by decide +kernel) (· ≤ (4 : ℚ)) [3] (by simp)
    (by
      rw [e1]
      refine ⟨by norm_num, _, rfl, .inr ⟨_, _, _, _, rfl, by norm_num, by norm_num, by norm_num, fun τ h1 h2 => ?_, .inl ⟨?_, rfl⟩, .inr ⟨?_, rfl⟩⟩, .inl rfl, trivial⟩
      · constructor
        · intro h; exact ⟨by linarith, by linarith⟩
        · intro h; linarith [h.2]
      · norm_num
      · norm_num)
    (by
      rw [e4, e1]
      rintro τ h0 _ hin ⟨ε, he, h⟩
      have hm : 0 < min (ε / 2) (1 / 2 : ℚ) := lt_min (by linarith) (by norm_num)
      have := min_le_left (ε / 2) (1 / 2 : ℚ)
      have := min_le_right (ε / 2) (1 / 2 : ℚ)
      rcases le_or_gt τ (7 / 2) with hc | hc
      · exact h (τ + min (ε / 2) (1 / 2)) (by linarith) (by linarith) (by linarith) (by linarith) (by linarith) (by dsimp only; linarith)
      · exact h (τ - min (ε / 2) (1 / 2)) (by linarith) (by linarith) (by linarith) (by linarith) (by linarith) (by dsimp only; linarith))
    (fun _ => by rw [e1]; norm_num) ops hops).2
  rw [e1, e2, e3] at h
  norm_num at h
  exact h

/-- Neither of the two processes of the first trip has ended when the second begins, and the sensor is told only of the exit. -/
example : (∃ p ∈ (step lineI line3 (.stop 1)).1.procs, p.intr = true ∧ p.stage ≠ .over) ∧
    told (run lineI line3 [.stop 1, .start 1 1 [0, 3], .fire 0, .fire 1, .fire 2, .advance 4, .fire 2, .advance 20]) 1 7 = [(2, true), (4, false)] := by decide +kernel

end Verif.Queued
