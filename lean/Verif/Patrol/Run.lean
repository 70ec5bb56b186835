import Verif.Patrol.Lemmas

/-! # The runs of the manager and of a location state in a run of the world -/

namespace Verif.Patrol

open Verif.Stepped (Obj)

variable {P : Type}

/-! ### The manager -/

/-- Neither the clock nor what is known. -/
def Still : Stepped.Op → Prop
  | .addSensor .. => False
  | .addDetectable .. => False
  | .startMover .. => False
  | .stopMover _ => False
  | .advance _ => False
  | _ => True

theorem again_known (c : Stepped.Cfg) (n : Int) (e : Bool) (σ : Stepped.St) :
    (Stepped.again c n e σ).now = σ.now ∧ (Stepped.again c n e σ).sensors = σ.sensors ∧ (Stepped.again c n e σ).detectables = σ.detectables := by
  unfold Stepped.again
  split <;> (try split) <;> exact ⟨rfl, rfl, rfl⟩

theorem still_known (c : Stepped.Cfg) (σ : Stepped.St) (h : Stepped.InvA σ) (q : Stepped.Op) (hq : Still q) :
    (Stepped.step c σ q).1.now = σ.now ∧ (Stepped.step c σ q).1.sensors = σ.sensors ∧ (Stepped.step c σ q).1.detectables = σ.detectables := by
  cases q with
  | addSensor s ok => exact absurd hq id
  | addDetectable a ok => exact absurd hq id
  | startMover a ok => exact absurd hq id
  | stopMover a => exact absurd hq id
  | advance t => exact absurd hq id
  | setDetectable a v L =>
    cases v with
    | true =>
      have := (Stepped.runDetectable_invA L (some [a]) { σ with det := fun b => if b = a then true else σ.det b } (h.frame rfl rfl)).2.1
      exact ⟨this.now, this.sensors, this.detectables⟩
    | false => exact ⟨rfl, rfl, rfl⟩
  | particular a L =>
    have := (Stepped.runDetectable_invA L (some [a]) σ h).2.1
    exact ⟨this.now, this.sensors, this.detectables⟩
  | run => exact ⟨rfl, rfl, rfl⟩
  | beginRun =>
    simp only [Stepped.step]
    split
    · exact ⟨rfl, rfl, rfl⟩
    · split
      · exact ⟨rfl, rfl, rfl⟩
      · split <;> exact ⟨rfl, rfl, rfl⟩
  | timer e L =>
    rcases Stepped.timer_cases σ with ⟨n, rest, hl⟩ | hl
    · obtain ⟨τ, o, hr, -, h1, -⟩ := Stepped.timer_eq c σ e L n rest hl
      have := (Stepped.runDetectable_invA L none { σ with loops := rest, checks := σ.checks ++ [(σ.now, e)] } (h.frame rfl rfl)).2.1
      rw [hr] at this
      rw [h1]
      split
      · obtain ⟨a1, a2, a3⟩ := again_known c n e τ
        exact ⟨a1.trans this.now, a2.trans this.sensors, a3.trans this.detectables⟩
      · exact ⟨this.now, this.sensors, this.detectables⟩
    · rw [Stepped.timer_other c σ e L hl]; exact ⟨rfl, rfl, rfl⟩
  | reorder view => simp only [Stepped.step]; split <;> exact ⟨rfl, rfl, rfl⟩

/-! ### What holds at any time -/

/-- Nothing is half done; the manager knows existing states; there is one clock. -/
structure Sound (c : Cfg P) (w : World P) : Prop where
  ready : w.Ready
  inv : Stepped.Inv w.mgr
  eyes : ∀ s ∈ w.mgr.sensors, w.eyes s ∈ c.states s
  spots : ∀ a ∈ w.mgr.detectables, w.spots a ∈ c.states a
  clock : ∀ a n, c.copy a = false → (w.loc a n).now = (w.mgr.now : ℝ)

theorem Sound.init (c : Cfg P) (t0 : Rat) (det : Obj → Bool) (radius : Obj → ℝ) (val : Obj → Nat → P) : Sound c (init t0 det radius val) :=
  ⟨fun a n b hb => (by cases hb), Stepped.init_inv det t0, fun s hs => (by cases hs), fun a ha => (by cases ha), fun _ _ _ => rfl⟩

/-- The operations of the manager that come of an operation. -/
def From (c : Cfg P) (o : Op P) : Stepped.Op → Prop
  | .stopMover b => ∃ m ∈ c.states b, o = .deactivate b m
  | .timer e _ => o = .timer e
  | .startMover b _ => c.copy b = false ∧ ∃ m v ws, o = .activate b m v ws
  | .addDetectable b _ => ∃ m, o = .addDetectable b m
  | .particular b _ => o = .particular b
  | .setDetectable b v _ => o = .detect b v
  | .addSensor s _ => ∃ m, o = .addSensor s m
  | .advance t => o = .advance t
  | _ => True

/-- What an operation does, to the manager and to the location state `n` of `a`. -/
structure Does (c : Cfg P) (a : Obj) (n : Nat) (w : World P) (o : Op P) (w' : World P) : Prop where
  sound : Sound c w'
  mgr : ∃ mo, (∀ q ∈ mo, q.Quiet ∧ From c o q) ∧ w'.mgr = Stepped.exec c.mgr mo w.mgr
  loc : c.copy a = false → ∃ po : List (Path.Op P), (o ≠ .deactivate a n → ∀ p ∈ po, p.During) ∧ w'.loc a n = Path.exec c.kind po (w.loc a n)

theorem Does.none {c : Cfg P} {a : Obj} {n : Nat} {w : World P} (h : Sound c w) (o : Op P) : Does c a n w o w :=
  ⟨h, ⟨[], by simp, rfl⟩, fun _ => ⟨[], by simp, rfl⟩⟩

/-- Operations of the manager that read nothing and keep what is known. -/
theorem Does.ask {c : Cfg P} {a : Obj} {n : Nat} {w : World P} (h : Sound c w) (o : Op P) (q : Stepped.Op) (hq : Still q) (hQ : q.Quiet)
    (ht : From c o q) :
    Does c a n w o (ask c w q).1 := by
  obtain ⟨k1, k2, k3⟩ := still_known c.mgr w.mgr h.inv.toInvA q hq
  refine ⟨⟨h.ready, Stepped.step_inv c.mgr w.mgr q hQ h.inv, ?_, ?_, ?_⟩, ⟨[q], ?_, rfl⟩, fun _ => ⟨[], by simp, rfl⟩⟩
  · show ∀ s ∈ (Stepped.step c.mgr w.mgr q).1.sensors, _
    rw [k2]; exact h.eyes
  · show ∀ a ∈ (Stepped.step c.mgr w.mgr q).1.detectables, _
    rw [k3]; exact h.spots
  · intro b m hb
    show (w.loc b m).now = ((Stepped.step c.mgr w.mgr q).1.now : ℝ)
    rw [k1]; exact h.clock b m hb
  · intro q' hq'
    simp only [List.mem_singleton] at hq'
    subst hq'
    exact ⟨hQ, ht⟩

/-- Checks. -/
theorem Does.check {c : Cfg P} {a : Obj} {n : Nat} {w : World P} (h : Sound c w) (o : Op P) (μ : Stepped.St) (req : Option (List Obj)) (f : Stepped.Look → Stepped.Op)
    (hq : ∀ L, Still (f L)) (hQ : ∀ L, Stepped.Quiet L → (f L).Quiet)
    (ht : ∀ L, From c o (f L)) : Does c a n w o (check c w μ req f).1 := by
  obtain ⟨h1, h2, -⟩ := scan_spec c w h.ready μ req
  obtain ⟨k1, k2, k3⟩ := still_known c.mgr w.mgr h.inv.toInvA (f (scan c w μ req).2) (hq _)
  refine ⟨⟨fun a n => h1.ready h.ready a n, Stepped.step_inv c.mgr w.mgr _ (hQ _ h2) h.inv, ?_, ?_, ?_⟩, ⟨[f (scan c w μ req).2], ?_, rfl⟩, fun _ => ?_⟩
  · show ∀ s ∈ (Stepped.step c.mgr w.mgr _).1.sensors, (scan c w μ req).1.eyes s ∈ _
    rw [k2, h1.eyes]; exact h.eyes
  · show ∀ s ∈ (Stepped.step c.mgr w.mgr _).1.detectables, (scan c w μ req).1.spots s ∈ _
    rw [k3, h1.spots]; exact h.spots
  · intro b m hb
    show ((scan c w μ req).1.loc b m).now = ((Stepped.step c.mgr w.mgr _).1.now : ℝ)
    rw [k1, ← h.clock b m hb]
    rcases h1.loc b m with e | e <;> rw [e]
    exact Drive.read_now _ _
  · intro q' hq'
    simp only [List.mem_singleton] at hq'
    subst hq'
    exact ⟨hQ _ h2, ht _⟩
  · show ∃ po : List (Path.Op P), _ ∧ (scan c w μ req).1.loc a n = _
    rcases h1.loc a n with e | e
    · exact ⟨[], by simp, e⟩
    · exact ⟨[.read], by simp [Path.Op.During], e⟩

/-- Operations on one location state, in which the manager may be told of a motion. -/
theorem Does.state {c : Cfg P} {a : Obj} {n : Nat} {w : World P} (h : Sound c w) (o : Op P) (b : Obj) (m : Nat) (po : Path.Op P) (ht : ∀ t, po ≠ .advance t)
    (hd : po = .deactivate → o = .deactivate b m) (mo : List Stepped.Op) (spots : Obj → Nat)
    (hmo : ∀ q ∈ mo, q.Quiet ∧ From c o q) (hinv : (Stepped.exec c.mgr mo w.mgr).now = w.mgr.now)
    (hs : (Stepped.exec c.mgr mo w.mgr).sensors = w.mgr.sensors) (hsp : ∀ a ∈ (Stepped.exec c.mgr mo w.mgr).detectables, spots a ∈ c.states a) :
    Does c a n w o { setLoc w b m (Path.step c.kind (w.loc b m) po).1 with spots := spots, mgr := Stepped.exec c.mgr mo w.mgr } := by
  refine ⟨⟨?_, Stepped.exec_inv c.mgr mo (fun q hq => (hmo q hq).1) _ h.inv, ?_, hsp, ?_⟩, ⟨mo, hmo, rfl⟩, fun _ => ?_⟩
  · intro a' n'
    show Ready (if a' = b ∧ n' = m then _ else _)
    split
    · exact ready_step _ _ _ (h.ready b m)
    · exact h.ready a' n'
  · show ∀ s ∈ (Stepped.exec c.mgr mo w.mgr).sensors, w.eyes s ∈ _
    rw [hs]; exact h.eyes
  · intro a' n' ha'
    show (if a' = b ∧ n' = m then (Path.step c.kind (w.loc b m) po).1 else w.loc a' n').now = ((Stepped.exec c.mgr mo w.mgr).now : ℝ)
    rw [hinv, ← h.clock a' n' ha']
    split
    · rename_i hc
      obtain ⟨rfl, rfl⟩ := hc
      exact Drive.path_now _ _ _ ht
    · rfl
  · show ∃ po' : List (Path.Op P), _ ∧ (if a = b ∧ n = m then (Path.step c.kind (w.loc b m) po).1 else w.loc a n) = _
    split
    · rename_i hc
      obtain ⟨rfl, rfl⟩ := hc
      refine ⟨[po], fun hne p hp => ?_, rfl⟩
      simp only [List.mem_singleton] at hp
      subst hp
      cases p with
      | deactivate => exact absurd (hd rfl) hne
      | _ => trivial
    · exact ⟨[], by simp, rfl⟩

theorem mem_addKey {l : List Obj} {k b : Obj} (h : b ∈ Stepped.addKey l k) : b ∈ l ∨ b = k := by
  unfold Stepped.addKey at h
  split at h
  · exact .inl h
  · simpa using h

theorem plain_does {c : Cfg P} {a : Obj} {n : Nat} {w : World P} (h : Sound c w) (o : Op P) (b : Obj) (m : Nat) (po : Path.Op P) (ht : ∀ t, po ≠ .advance t)
    (hd : po ≠ .deactivate) : Does c a n w o (plain c w b m po).1 :=
  Does.state h o b m po ht (fun h => absurd h hd) [] w.spots (by simp) rfl rfl h.spots

theorem step_does (c : Cfg P) (w : World P) (h : Sound c w) (o : Op P) (a : Obj) (n : Nat) : Does c a n w o (step c w o).1 := by
  have key : (∀ b m, o.uses = some (b, m) → m ∈ c.states b) → Does c a n w o (act c w o).1 := by
    intro hu
    cases o with
    | activate b m v ws =>
      have hm := hu b m rfl
      have hsim : ∀ o', Path.step c.kind (w.loc b m) (.activate v ws) = o' → Does c a n w (.activate b m v ws) (setLoc w b m o'.1) := by
        rintro _ rfl
        exact Does.state h _ b m (.activate v ws) (by simp) (by simp) [] w.spots (by simp) rfl rfl h.spots
      have hst := Does.state (a := a) (n := n) h (.activate b m v ws) b m (.activate v ws) (by simp) (by simp) [.startMover b true]
        (if b ∈ w.mgr.detectables then w.spots else upd w.spots b ((c.states b).headD 0))
      simp only [act, activate]
      cases hp : Path.step c.kind (w.loc b m) (.activate v ws) with
      | mk τ o' =>
        rw [hp] at hst
        have hsim' := hsim _ hp
        cases o' with
        | done =>
          dsimp only
          split
          · exact hsim'
          · rename_i hcp
            refine hst (by
                intro q hq
                simp only [List.mem_singleton] at hq
                subst hq
                exact ⟨fun L hL => (by cases hL), ⟨by simpa using hcp, m, v, ws, rfl⟩⟩) ?_ ?_ ?_
            · simp only [Stepped.exec, Stepped.step, Stepped.addMover]
              split <;> split <;> rfl
            · simp only [Stepped.exec, Stepped.step, Stepped.addMover]
              split <;> split <;> rfl
            · intro x hx
              have hx' : x ∈ w.mgr.detectables ∨ (b ∉ w.mgr.detectables ∧ x = b) := by
                have hd : (Stepped.exec c.mgr [.startMover b true] w.mgr).detectables =
                    if b ∈ w.mgr.detectables then w.mgr.detectables else Stepped.addKey w.mgr.detectables b := by
                  simp only [Stepped.exec, Stepped.step, Stepped.addMover]
                  cases w.mgr.isRunning <;> by_cases hb : b ∈ w.mgr.detectables <;> simp [hb]
                rw [hd] at hx
                split at hx
                · exact .inl hx
                · rename_i hb
                  rcases mem_addKey hx with hx | hx
                  · exact .inl hx
                  · exact .inr ⟨hb, hx⟩
              split
              · rename_i hb
                rcases hx' with hx' | ⟨hb', -⟩
                · exact h.spots x hx'
                · exact absurd hb hb'
              · rename_i hb
                simp only [upd]
                split
                · rename_i hxb
                  subst hxb
                  obtain ⟨y, ys, he⟩ := List.exists_cons_of_ne_nil (List.ne_nil_of_mem hm)
                  rw [he]; simp
                · rename_i hxb
                  rcases hx' with hx' | ⟨-, hx'⟩
                  · exact h.spots x hx'
                  · exact absurd hx' hxb
        | error => exact hsim'
        | loc p => exact hsim'
        | list p => exact hsim'
    | deactivate b m =>
      have hsim : ∀ o', Path.step c.kind (w.loc b m) .deactivate = o' → Does c a n w (.deactivate b m) (setLoc w b m o'.1) := by
        rintro _ rfl
        exact Does.state h _ b m .deactivate (by simp) (fun _ => rfl) [] w.spots (by simp) rfl rfl h.spots
      have hst := Does.state (a := a) (n := n) h (.deactivate b m) b m .deactivate (by simp) (fun _ => rfl) [.stopMover b] w.spots
        (by
          intro q hq
          simp only [List.mem_singleton] at hq
          subst hq
          exact ⟨fun L hL => (by cases hL), ⟨m, hu b m rfl, rfl⟩⟩) rfl rfl
        (fun x hx => h.spots x (List.mem_of_mem_erase hx))
      simp only [act, deactivate]
      cases hp : Path.step c.kind (w.loc b m) .deactivate with
      | mk τ o' =>
        rw [hp] at hst
        have hsim' := hsim _ hp
        cases o' with
        | done =>
          dsimp only
          split
          · exact hsim'
          · exact hst
        | error => exact hsim'
        | loc p => exact hsim'
        | list p => exact hsim'
    | read b m => exact plain_does h _ b m .read (by simp) (by simp)
    | remaining b m => exact plain_does h _ b m .remaining (by simp) (by simp)
    | assign b m p => exact plain_does h _ b m (.assign p) (by simp) (by simp)
    | setRadius s r => exact ⟨⟨h.ready, h.inv, h.eyes, h.spots, h.clock⟩, ⟨[], by simp, rfl⟩, fun _ => ⟨[], by simp, rfl⟩⟩
    | detect b v =>
      cases v with
      | true => exact Does.check h _ _ _ _ (fun _ => trivial) (fun L hL L' hL' => by simp only [Stepped.Op.look?, Option.some.injEq] at hL'; subst hL'; exact hL) (fun _ => rfl)
      | false => exact Does.ask h _ _ trivial (fun L hL => by cases hL) (by trivial)
    | addSensor s m =>
      simp only [act]
      split
      · rename_i hm
        refine ⟨⟨h.ready, Stepped.step_inv c.mgr w.mgr (.addSensor s true) (fun L hL => by cases hL) h.inv, ?_, h.spots, h.clock⟩, ⟨[.addSensor s true], ?_, rfl⟩, fun _ => ⟨[], by simp, rfl⟩⟩
        · intro s' hs'
          show upd w.eyes s m s' ∈ _
          simp only [upd]
          split
          · rename_i e; subst e; exact hm
          · rename_i e; exact h.eyes s' ((mem_addKey hs').resolve_right e)
        · intro q hq
          simp only [List.mem_singleton] at hq
          subst hq
          exact ⟨fun L hL => (by cases hL), ⟨m, rfl⟩⟩
      · exact ⟨h, ⟨[], by simp, rfl⟩, fun _ => ⟨[], by simp, rfl⟩⟩
    | addDetectable b m =>
      simp only [act]
      split
      · rename_i hm
        refine ⟨⟨h.ready, Stepped.step_inv c.mgr w.mgr (.addDetectable b true) (fun L hL => by cases hL) h.inv, h.eyes, ?_, h.clock⟩, ⟨[.addDetectable b true], ?_, rfl⟩, fun _ => ⟨[], by simp, rfl⟩⟩
        · intro s' hs'
          show upd w.spots b m s' ∈ _
          simp only [upd]
          split
          · rename_i e; subst e; exact hm
          · rename_i e; exact h.spots s' ((mem_addKey hs').resolve_right e)
        · intro q hq
          simp only [List.mem_singleton] at hq
          subst hq
          exact ⟨fun L hL => (by cases hL), ⟨m, rfl⟩⟩
      · exact ⟨h, ⟨[], by simp, rfl⟩, fun _ => ⟨[], by simp, rfl⟩⟩
    | particular b =>
      exact Does.check h _ _ _ _ (fun _ => trivial) (fun L hL L' hL' => by simp only [Stepped.Op.look?, Option.some.injEq] at hL'; subst hL'; exact hL) (fun _ => rfl)
    | run => exact Does.ask h _ _ trivial (fun L hL => by cases hL) (by trivial)
    | beginRun => exact Does.ask h _ _ trivial (fun L hL => by cases hL) (by trivial)
    | timer e =>
      simp only [act]
      split
      · exact Does.none h _
      · split
        · exact Does.none h _
        · exact Does.check h _ _ _ _ (fun _ => trivial) (fun L hL L' hL' => by simp only [Stepped.Op.look?, Option.some.injEq] at hL'; subst hL'; exact hL) (fun _ => rfl)
    | reorder view => exact Does.ask h _ _ trivial (fun L hL => by cases hL) (by trivial)
    | mock b t =>
      simp only [act]
      split
      · rename_i hc
        refine ⟨⟨fun a' n' => ?_, h.inv, h.eyes, h.spots, fun a' n' ha' => ?_⟩, ⟨[], by simp, rfl⟩, fun ha => ⟨[], by simp, ?_⟩⟩
        · show Ready (if a' = b then _ else _)
          split
          · exact ready_step _ _ _ (h.ready b n')
          · exact h.ready a' n'
        · show (if a' = b then (Path.step c.kind (w.loc b n') (.advance t)).1 else w.loc a' n').now = _
          rw [if_neg (by rintro rfl; rw [hc] at ha'; cases ha')]
          exact h.clock a' n' ha'
        · show (if a = b then (Path.step c.kind (w.loc b n) (.advance t)).1 else w.loc a n) = _
          rw [if_neg (by rintro rfl; rw [hc] at ha; cases ha)]
          rfl
      · exact Does.none h _
    | advance t =>
      simp only [act]
      by_cases hc : w.mgr.now ≤ t ∧ w.mgr.pending = 0 ∧ ∀ l ∈ w.mgr.loops, t ≤ l.1
      · have : Stepped.step c.mgr w.mgr (.advance t) = ({ w.mgr with now := t }, .ok) := by simp only [Stepped.step, if_pos hc]
        rw [this]
        have hle : (w.mgr.now : ℝ) ≤ (t : ℝ) := by exact_mod_cast hc.1
        refine ⟨⟨fun a' n' => ?_, h.inv.frame rfl rfl rfl, h.eyes, h.spots, fun a' n' ha' => ?_⟩, ⟨[.advance t], ?_, ?_⟩, fun ha => ⟨[.advance (t : ℝ)], by simp [Path.Op.During], ?_⟩⟩
        · show Ready (if c.copy a' then _ else _)
          split
          · exact h.ready a' n'
          · exact h.ready a' n'
        · show (if c.copy a' then w.loc a' n' else { w.loc a' n' with now := (t : ℝ) }).now = _
          rw [if_neg (by rw [ha']; simp)]
        · intro q hq
          simp only [List.mem_singleton] at hq
          subst hq
          exact ⟨fun L hL => (by cases hL), rfl⟩
        · simp only [Stepped.exec, this]
        · show (if c.copy a then w.loc a n else { w.loc a n with now := (t : ℝ) }) = _
          rw [if_neg (by rw [ha]; simp)]
          simp only [Path.exec, Path.step, h.clock a n ha, if_pos hle]
      · have : Stepped.step c.mgr w.mgr (.advance t) = (w.mgr, .refused) := by simp only [Stepped.step, if_neg hc]
        rw [this]
        exact Does.none h _
  unfold step
  cases hu : o.uses with
  | none => exact key (fun b m hb => by rw [hu] at hb; cases hb)
  | some p =>
    obtain ⟨b, m⟩ := p
    dsimp only
    split
    · rename_i hm
      exact key (fun b' m' hb => by rw [hu] at hb; cases hb; exact hm)
    · exact Does.none h _

/-- A run, as a run of the manager and one of the location state `n` of `a`. -/
theorem run_does (c : Cfg P) (ops : List (Op P)) (w : World P) (h : Sound c w) (a : Obj) (n : Nat) :
    Sound c (run c w ops) ∧
    (∃ mo, (∀ q ∈ mo, q.Quiet ∧ ∃ o ∈ ops, From c o q) ∧ (run c w ops).mgr = Stepped.exec c.mgr mo w.mgr) ∧
    (c.copy a = false → ∃ po : List (Path.Op P), (Op.deactivate a n ∉ ops → ∀ p ∈ po, p.During) ∧ (run c w ops).loc a n = Path.exec c.kind po (w.loc a n)) := by
  induction ops generalizing w with
  | nil => exact ⟨h, ⟨[], by simp, rfl⟩, fun _ => ⟨[], by simp, rfl⟩⟩
  | cons o ops ih =>
    obtain ⟨h1, ⟨mo, hmo, e1⟩, h2⟩ := step_does c w h o a n
    obtain ⟨g1, ⟨mo', hmo', e2⟩, g2⟩ := ih _ h1
    refine ⟨g1, ⟨mo ++ mo', fun q hq => ?_, by rw [Stepped.exec_append, ← e1]; exact e2⟩, fun ha => ?_⟩
    · rcases List.mem_append.1 hq with hq | hq
      · exact ⟨(hmo q hq).1, o, List.mem_cons_self .., (hmo q hq).2⟩
      · obtain ⟨h1, o', h2, h3⟩ := hmo' q hq
        exact ⟨h1, o', List.mem_cons_of_mem _ h2, h3⟩
    · obtain ⟨po, hpo, e3⟩ := h2 ha
      obtain ⟨po', hpo', e4⟩ := g2 ha
      refine ⟨po ++ po', fun hn p hp => ?_, ?_⟩
      · simp only [List.mem_cons, not_or] at hn
        rcases List.mem_append.1 hp with hp | hp
        · exact hpo (fun h => hn.1 h.symm) p hp
        · exact hpo' hn.2 p hp
      · rw [Path.exec_append, ← e3]; exact e4

end Verif.Patrol
