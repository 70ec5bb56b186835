import Verif.Queued.Restart

/-! # C43, whatever the intersection model answers

Nothing is assumed of the intersection model here: what sensors are told are crossings it has reported for a leg of the path, each at its time. -/

namespace Verif.Queued

open Verif.Sphere (Tag)

variable {α L : Type} [Field α] [LinearOrder α] [IsStrictOrderedRing α]

/-- The notification `x` of a trip watched since `tc` is that of one of the pairs of crossings `ps`. -/
def Comes (tc : α) (ps : List (Entry α × Entry α)) (x : α × Bool) : Prop :=
  ∃ p ∈ ps, (x.2 = true ∧ ((p.1.kind = .startInside ∨ p.1.time ≤ tc) ∧ x.1 = tc ∨ tc < p.1.time ∧ x.1 = p.1.time)) ∨
    (x.2 = false ∧ p.2.kind = .exit ∧ tc < p.2.time ∧ x.1 = p.2.time)

/-- A process that has not ended belongs to one of the pairs. -/
def Alive (tc now : α) (ps : List (Entry α × Entry α)) (p : Proc α) : Prop :=
  (p.first, p.second) ∈ ps ∧ (p.stage = .fresh ∧ now = tc ∨ p.stage = .entry p.first.time ∧ tc < p.first.time ∨
    p.stage = .exit p.second.time ∧ p.second.kind = .exit ∧ tc < p.second.time)

structure From (m s : Nat) (tc : α) (ps : List (Entry α × Entry α)) (l0 : List (α × Bool)) (σ : St α L) : Prop where
  wf : Wf σ
  time : tc ≤ σ.now
  live : ∀ (i : Nat) p, σ.procs[i]? = some p → p.mover = m → p.sensor = s → p.stage ≠ .over → Alive tc σ.now ps p
  told : ∃ new, told σ m s = l0 ++ new ∧ ∀ x ∈ new, Comes tc ps x

variable {m s : Nat} {tc : α} {ps : List (Entry α × Entry α)} {l0 : List (α × Bool)} {σ τ : St α L}

theorem From.frame (h : From m s tc ps l0 σ) (f : Frame m s σ τ) (w : Wf τ) : From m s tc ps l0 τ :=
  ⟨w, by rw [f.now]; exact h.time, fun i p h1 h2 h3 h4 => by rw [f.now]; exact h.live i p ((f.procs i p h2 h3).1 h1) h2 h3 h4, by rw [f.told]; exact h.told⟩

theorem From.put (h : From m s tc ps l0 σ) {i : Nat} {p' : Proc α} (hw : Wf τ) (hn : τ.now = σ.now)
    (hp : τ.procs = σ.procs.set i p') (ha : p'.stage ≠ .over → Alive tc σ.now ps p') (e : List (α × Bool)) (ht : Queued.told τ m s = Queued.told σ m s ++ e)
    (he : ∀ x ∈ e, Comes tc ps x) : From m s tc ps l0 τ := by
  refine ⟨hw, by rw [hn]; exact h.time, fun j p h1 h2 h3 h4 => ?_, ?_⟩
  · rw [hn]
    rw [hp, List.getElem?_set] at h1
    split at h1
    · split at h1
      · cases h1; exact ha h4
      · cases h1
    · exact h.live j p h1 h2 h3 h4
  · obtain ⟨new, h1, h2⟩ := h.told
    exact ⟨new ++ e, by rw [ht, h1, List.append_assoc], fun x hx => (List.mem_append.1 hx).elim (h2 x) (he x)⟩

/-- The second half of a process. -/
theorem From.after (h : From m s tc ps l0 σ) {i : Nat} {p : Proc α} (hm : (p.first, p.second) ∈ ps) (ρ : St α L) (hw : Wf (afterEntry ρ i p).1)
    (hn : ρ.now = σ.now) (hp : ρ.procs = σ.procs) (e : List (α × Bool)) (ht : Queued.told ρ m s = Queued.told σ m s ++ e) (he : ∀ x ∈ e, Comes tc ps x) :
    From m s tc ps l0 (afterEntry ρ i p).1 := by
  revert hw
  unfold afterEntry
  split
  · exact fun hw => h.put (p' := { p with stage := .over }) hw hn (by show ρ.procs.set i _ = _; rw [hp]) (fun hc => absurd rfl hc) e ht he
  · rename_i hk
    rw [not_not] at hk
    split
    · exact fun hw => h.put (p' := { p with stage := .over }) hw hn (by show ρ.procs.set i _ = _; rw [hp]) (fun hc => absurd rfl hc) e ht he
    · rename_i hlt
      refine fun hw => h.put (p' := { p with stage := .exit p.second.time }) hw hn (by show ρ.procs.set i _ = _; rw [hp]) (fun _ => ⟨hm, .inr (.inr ⟨rfl, hk, ?_⟩)⟩) e ht he
      rw [hn] at hlt
      exact lt_of_le_of_lt h.time (not_le.1 hlt)

theorem From.fire (h : From m s tc ps l0 σ) (i : Nat) : From m s tc ps l0 (Queued.fire σ i).1 := by
  by_cases hi : ∀ p, σ.procs[i]? = some p → p.mover = m → p.sensor = s → p.stage = .over
  · exact h.frame (fire_frame σ m s i hi) (fire_wf σ i h.wf)
  · push Not at hi
    obtain ⟨p, hp, hm, hs, hst⟩ := hi
    have hwf := fire_wf σ i h.wf
    obtain ⟨hmem, hl⟩ := h.live i p hp hm hs hst
    have hover : ∀ {τ : St α L}, Wf τ → τ.now = σ.now → τ.procs = σ.procs.set i { p with stage := .over } → Queued.told τ m s = Queued.told σ m s → From m s tc ps l0 τ :=
      fun w h1 h2 h3 => h.put w h1 h2 (fun hc => absurd rfl hc) [] (by rw [h3, List.append_nil]) (by simp)
    revert hwf
    rcases hl with ⟨k2, k3⟩ | ⟨k2, k3⟩ | ⟨k2, k3, k4⟩
    · simp only [Queued.fire, hp, k2]
      unfold begins
      split
      · rename_i hent
        rw [k3] at hent
        obtain ⟨v1, v2, v3, v4, v5, v6, _⟩ := addToView_same σ p.mover p.sensor
        split
        · exact fun hw => h.after hmem _ hw v1 v5 [] (by unfold Queued.told; rw [v2, List.append_nil]) (by simp)
        · refine fun hw => h.after hmem _ hw v1 v5 [(tc, true)] ?_ ?_
          · rw [told_tell, if_pos ⟨hm, hs⟩, v1, k3]; unfold Queued.told; rw [v2]
          · intro x hx
            rw [List.mem_singleton] at hx
            subst hx
            exact ⟨_, hmem, .inl ⟨rfl, .inl ⟨hent, rfl⟩⟩⟩
      · rename_i hent
        push Not at hent
        split
        · exact fun hw => hover hw rfl rfl rfl
        · exact fun hw => h.put (p' := { p with stage := .entry p.first.time }) hw rfl rfl (fun _ => ⟨hmem, .inr (.inl ⟨rfl, by rw [← k3]; exact hent.2⟩)⟩) [] (by simp [setProc, Queued.told]) (by simp)
    · simp only [Queued.fire, hp, k2]
      split
      · exact fun hw => hover hw rfl rfl rfl
      · split
        · rename_i hdue
          obtain ⟨v1, v2, v3, v4, v5, v6, _⟩ := addToView_same (tell σ p.mover p.sensor true) p.mover p.sensor
          refine fun hw => h.after hmem _ hw v1 v5 [(p.first.time, true)] ?_ ?_
          · have : Queued.told (addToView (tell σ p.mover p.sensor true) p.mover p.sensor) m s = Queued.told (tell σ p.mover p.sensor true) m s := by
              unfold Queued.told; rw [v2]
            rw [this, told_tell, if_pos ⟨hm, hs⟩, hdue]
          · intro x hx
            rw [List.mem_singleton] at hx
            subst hx
            exact ⟨_, hmem, .inl ⟨rfl, .inr ⟨k3, rfl⟩⟩⟩
        · exact fun _ => h
    · simp only [Queued.fire, hp, k2]
      split
      · exact fun hw => hover hw rfl rfl rfl
      · split
        · rename_i hdue
          have hc : ∀ x ∈ [(p.second.time, false)], Comes tc ps x := by
            intro x hx
            rw [List.mem_singleton] at hx
            subst hx
            exact ⟨_, hmem, .inr ⟨rfl, k3, k4, rfl⟩⟩
          have ht : Queued.told (tell σ p.mover p.sensor false) m s = Queued.told σ m s ++ [(p.second.time, false)] := by
            rw [told_tell, if_pos ⟨hm, hs⟩, hdue]
          unfold leaves
          dsimp only
          split
          · exact fun hw => h.put (p' := { p with stage := .over }) hw rfl rfl (fun hc => absurd rfl hc) _ ht hc
          · exact fun hw => h.put (p' := { p with stage := .over }) hw rfl rfl (fun hc => absurd rfl hc) _ ht hc
        · exact fun _ => h

theorem From.step (I : Inter α L) (h : From m s tc ps l0 σ) (o : Op α L) (ho : Foreign m s o) : From m s tc ps l0 (step I σ o).1 := by
  by_cases hf : ∃ i, o = .fire i
  · obtain ⟨i, rfl⟩ := hf
    exact h.fire i
  · by_cases ha : ∃ t, o = .advance t
    · obtain ⟨t, rfl⟩ := ha
      simp only [Queued.step]
      split
      · rename_i hc
        refine ⟨⟨h.wf.events, h.wf.sensors, h.wf.movers, h.wf.view⟩, h.time.trans hc.1, fun i p h1 h2 h3 h4 => ?_, h.told⟩
        obtain ⟨k1, k2⟩ := h.live i p h1 h2 h3 h4
        refine ⟨k1, k2.elim (fun k => ?_) .inr⟩
        have := hc.2 p (List.mem_of_getElem? h1)
        simp [Idle, k.1] at this
      · exact h
    · exact h.frame (step_frame I σ m s o h.wf ho (fun i hi => hf ⟨i, hi⟩) (fun t ht => ha ⟨t, ht⟩)) (step_wf I σ o h.wf)

theorem From.run (I : Inter α L) (ops : List (Op α L)) (h : From m s tc ps l0 σ) (ho : ∀ o ∈ ops, Foreign m s o) : From m s tc ps l0 (run I σ ops) := by
  induction ops generalizing σ with
  | nil => exact h
  | cons o l ih => exact ih (h.step I o (ho o (by simp))) fun o' ho' => ho o' (by simp [ho'])

/-- At the beginning. -/
theorem Trk.from {b0 : Nat} {was : Bool} (h : Trk m s tc b0 (keep tc ps) was l0 0 false σ) : From m s tc ps l0 σ := by
  refine ⟨h.wf, h.time, fun i p h1 h2 h3 h4 => ?_, [], by rw [h.told, news_zero], by simp⟩
  obtain ⟨j, q, -, -, g3, g4, g5, -, g7⟩ := h.live i p h1 h2 h3 h4
  refine ⟨?_, ?_⟩
  · rw [g4, g5]; exact (List.mem_filter.1 (List.mem_of_getElem? g3)).1
  · rcases g7 with ⟨-, hc, -⟩ | ⟨-, ⟨k2, k3⟩ | ⟨k2, -, k4⟩⟩
    · cases hc
    · exact .inl ⟨k2, k3⟩
    · rw [g4]; exact .inr (.inl ⟨k2, k4⟩)

/-- The times the intersection model gives for the legs of a path. -/
def took (I : Inter α L) (speed : α) (s : Nat) : List L → α
  | a :: b :: l => (match I a b speed s with | some res => res.pathTime | none => 0) + took I speed s (b :: l)
  | _ => 0

omit [LinearOrder α] [IsStrictOrderedRing α] in
theorem absorb_mem (base : α) (es acc acc' : List (Entry α)) (h : absorb base acc es = some acc') :
    ∀ e ∈ acc', e ∈ acc ∨ ∃ c ∈ es, e = ⟨c.kind, base + c.time⟩ := by
  induction es generalizing acc with
  | nil => intro e he; cases acc <;> (simp only [absorb, Option.some.injEq] at h; subst h; exact .inl he)
  | cons c es ih =>
    have hmore : ∀ acc1 : List (Entry α), (∀ e ∈ acc1, e ∈ acc ∨ e = ⟨c.kind, base + c.time⟩) → absorb base acc1 es = some acc' →
        ∀ e ∈ acc', e ∈ acc ∨ ∃ c' ∈ c :: es, e = ⟨c'.kind, base + c'.time⟩ := by
      intro acc1 h1 h2 e he
      rcases ih acc1 h2 e he with h3 | ⟨c', h3, h4⟩
      · rcases h1 e h3 with h4 | h4
        · exact .inl h4
        · exact .inr ⟨c, by simp, h4⟩
      · exact .inr ⟨c', by simp [h3], h4⟩
    cases acc with
    | nil => exact hmore _ (by simp) h
    | cons l acc =>
      unfold absorb at h
      split at h
      · split at h
        · cases h
        · exact hmore _ (fun e he => .inl (by simp [he])) h
      · refine hmore _ (fun e he => ?_) h
        rcases List.mem_cons.1 he with he | he
        · exact .inr he
        · exact .inl he

/-- The entry `e` is a crossing the model reports for a leg of the path, at its time after the times of the legs before. -/
def Reported (I : Inter α L) (speed start : α) (s : Nat) (ws : List L) (e : Entry α) : Prop :=
  ∃ pre a b post res, ws = pre ++ a :: b :: post ∧ I a b speed s = some res ∧ ∃ c ∈ res.entries, e = ⟨c.kind, start + took I speed s (pre ++ [a]) + c.time⟩

omit [LinearOrder α] [IsStrictOrderedRing α] in
theorem scan_mem (I : Inter α L) (speed start : α) (s : Nat) (ws : List L) (el : α) (acc acc' : List (Entry α)) (h : scan I speed start s ws el acc = some acc') :
    ∀ e ∈ acc', e ∈ acc ∨ Reported I speed (start + el) s ws e := by
  induction ws generalizing el acc with
  | nil => intro e he; simp only [scan, Option.some.injEq] at h; subst h; exact .inl he
  | cons w ws ih =>
    cases ws with
    | nil => intro e he; simp only [scan, Option.some.injEq] at h; subst h; exact .inl he
    | cons w' ws =>
      unfold scan at h
      split at h
      · cases h
      · rename_i res hr
        split at h
        · cases h
        · rename_i acc1 ha
          intro e he
          rcases ih _ _ h e he with h1 | ⟨pre, a, b, post, res', h1, h2, c, h3, h4⟩
          · rcases absorb_mem _ _ _ _ ha e h1 with h2 | ⟨c, h2, h3⟩
            · exact .inl h2
            · exact .inr ⟨[], w, w', ws, res, rfl, hr, c, h2, by rw [h3]; simp [took]⟩
          · refine .inr ⟨w :: pre, a, b, post, res', by rw [h1]; rfl, h2, c, h3, ?_⟩
            rw [h4]
            have : took I speed s (w :: pre ++ [a]) = res.pathTime + took I speed s (pre ++ [a]) := by
              cases pre with
              | nil =>
                simp only [List.nil_append, List.cons.injEq] at h1
                rw [← h1.1]
                simp [took, hr]
              | cons y pre =>
                simp only [List.cons_append, List.cons.injEq] at h1
                rw [← h1.1]
                simp [took, hr]
            rw [this]
            congr 1
            ring

omit [Field α] [LinearOrder α] [IsStrictOrderedRing α] in
theorem pairUp_mem (l : List (Entry α)) (ps : List (Entry α × Entry α)) (h : pairUp l = some ps) : ∀ p ∈ ps, p.1 ∈ l ∧ p.2 ∈ l := by
  match l, h with
  | [], h => intro p hp; simp only [pairUp, Option.some.injEq] at h; subst h; cases hp
  | [_], h => simp [pairUp] at h
  | a :: b :: l, h =>
    simp only [pairUp, Option.map_eq_some_iff] at h
    obtain ⟨ps', h1, rfl⟩ := h
    intro p hp
    rcases List.mem_cons.1 hp with rfl | hp
    · simp
    · obtain ⟨g1, g2⟩ := pairUp_mem l ps' h1 p hp
      exact ⟨by simp [g1], by simp [g2]⟩

omit [LinearOrder α] [IsStrictOrderedRing α] in
theorem processPair_mem (I : Inter α L) (t : Trip α L) (s : Nat) (ps) (h : processPair I t s = some ps) :
    ∀ p ∈ ps, Reported I t.speed t.start s t.waypoints p.1 ∧ Reported I t.speed t.start s t.waypoints p.2 ∧ (p.1.kind = .enter ∨ p.1.kind = .startInside) := by
  unfold processPair at h
  split at h
  · cases h
  · rename_i acc ha
    split at h
    · cases h
    · rename_i ps' hp
      split at h
      · rename_i hv
        cases h
        intro p hp'
        obtain ⟨h1, h2⟩ := pairUp_mem _ _ hp p hp'
        have h3 := scan_mem I _ _ _ _ _ _ _ ha
        have key : ∀ e ∈ acc.reverse, Reported I t.speed t.start s t.waypoints e := by
          intro e he
          have := h3 e (List.mem_reverse.1 he)
          rw [add_zero] at this
          simpa using this
        refine ⟨key _ h1, key _ h2, ?_⟩
        have := List.all_eq_true.1 hv p hp'
        unfold valid at this
        split at this <;> simp_all
      · cases h

/-- What a notification of a trip begun at `start` and watched since `tc` goes back to: a crossing reported for a leg `a`, `b` of the path at the time `c.time`
after the beginning of the leg, as the model has it. Exits are told at their times, and only those to come. So are entries to come, and the others at once. -/
def Source (I : Inter α L) (speed start tc : α) (s : Nat) (ws : List L) (x : α × Bool) : Prop :=
  ∃ pre a b post res, ws = pre ++ a :: b :: post ∧ I a b speed s = some res ∧ ∃ c ∈ res.entries, ∃ due, due = start + took I speed s (pre ++ [a]) + c.time ∧
    (x.2 = true → (c.kind = .enter ∨ c.kind = .startInside) ∧ ((c.kind = .startInside ∨ due ≤ tc) ∧ x.1 = tc ∨ tc < due ∧ x.1 = due)) ∧
    (x.2 = false → c.kind = .exit ∧ tc < due ∧ x.1 = due)

omit [IsStrictOrderedRing α] in
theorem Comes.source (I : Inter α L) (t : Trip α L) (s : Nat) {tc : α} {ps} (h : processPair I t s = some ps) {x} (hx : Comes tc ps x) :
    Source I t.speed t.start tc s t.waypoints x := by
  obtain ⟨p, hp, hx⟩ := hx
  obtain ⟨⟨pre, a, b, post, res, g1, g2, c, g3, g4⟩, ⟨pre', a', b', post', res', g1', g2', c', g3', g4'⟩, hv⟩ := processPair_mem I t s ps h p hp
  rcases hx with ⟨h1, h2⟩ | ⟨h1, h2, h3, h4⟩
  · rw [g4] at h2 hv
    exact ⟨pre, a, b, post, res, g1, g2, c, g3, _, rfl, fun _ => ⟨hv, h2⟩, fun hc => by rw [h1] at hc; cases hc⟩
  · rw [g4'] at h2 h3 h4
    exact ⟨pre', a', b', post', res', g1', g2', c', g3', _, rfl, fun hc => by (rw [h1] at hc; cases hc), fun _ => ⟨h2, h3, h4⟩⟩

omit [IsStrictOrderedRing α] in
theorem schedule_movers (m s : Nat) (ps : List (Entry α × Entry α)) (σ : St α L) : (ps.foldl (schedule m s) σ).movers = σ.movers := by
  induction ps generalizing σ with
  | nil => rfl
  | cons p ps ih =>
    rw [List.foldl_cons, ih]
    unfold schedule
    split <;> rfl

/-- If nothing is raised there are crossings for each pair of a mover and a sensor. -/
theorem find_pair (I : Inter α L) (l : List (Nat × Nat)) (σ : St α L) (m s : Nat) (t : Trip α L) (hm : (m, s) ∈ l) (ht : σ.movers.get? m = some t)
    (hok : (find I l σ).2 = .ok) : ∃ ps, processPair I t s = some ps := by
  induction l generalizing σ with
  | nil => cases hm
  | cons p l ih =>
    rw [find_cons] at hok
    by_cases h1 : (findOne I σ p.1 p.2).2 = .ok
    · rw [if_pos h1] at hok
      rcases List.mem_cons.1 hm with rfl | hm
      · unfold findOne at h1
        rw [ht] at h1
        cases h : processPair I t s with
        | none => simp [h] at h1
        | some ps => exact ⟨ps, rfl⟩
      · refine ih _ hm ?_ hok
        rw [← ht]
        unfold findOne
        split
        · rfl
        · split
          · rfl
          · rw [schedule_movers]
    · rw [if_neg h1] at hok
      exact absurd hok h1

/-- `c43_source` when the processes of earlier trips have ended. -/
theorem source_quiet (I : Inter α L) (t0 : α) (det : Nat → Option Bool) (ops₀ : List (Op α L)) (σ : St α L) (hσ : σ = run I (St.init t0 det) ops₀)
    (m s : Nat) (speed : α) (ws : List L) (hdet : σ.detect m = some true) (hs : s ∈ σ.sensors) (hq : Quiet σ m s)
    (hok : (step I σ (.start m speed ws)).2 = .ok) (ops : List (Op α L)) (hops : ∀ o ∈ ops, Foreign m s o) :
    ∃ new, told (run I (step I σ (.start m speed ws)).1 ops) m s = told σ m s ++ new ∧ ∀ x ∈ new, Source I speed σ.now σ.now s ws x := by
  have hw : Wf σ := hσ ▸ run_wf I ops₀ _ (init_wf t0 det)
  have hps : ∃ ps, processPair I ⟨speed, ws, σ.now⟩ s = some ps := by
    have hok' := hok
    simp only [step, startMover, hdet] at hok'
    split at hok'
    · cases hok'
    · exact find_pair I _ _ m s _ (List.mem_map.2 ⟨s, hs, rfl⟩) (Dict.get?_set_self _ _ _) hok'
  obtain ⟨ps, hps⟩ := hps
  obtain ⟨b0, ht⟩ := trk_start I σ hw m s speed ws hdet hs hq hok ps hps
  obtain ⟨new, h1, h2⟩ := (ht.from.run I ops hops).told
  exact ⟨new, h1, fun x hx => (h2 x hx).source I ⟨speed, ws, σ.now⟩ s hps⟩

/-- **C43, nothing is made up.** With any intersection model: when a detectable mover has been started and the sensor is known, whatever happens afterwards other than
to this mover or sensor, everything the sensor is told about the mover is a crossing which the model reports for a leg of the path, an entry for an entry and
an exit for an exit, at the time of the crossing: the time in the leg, after the times the model gives for the legs before. -/
theorem c43_source (I : Inter α L) (t0 : α) (det : Nat → Option Bool) (ops₀ : List (Op α L)) (σ : St α L) (hσ : σ = run I (St.init t0 det) ops₀)
    (m s : Nat) (speed : α) (ws : List L) (hdet : σ.detect m = some true) (hs : s ∈ σ.sensors) (hq : Dead σ m s)
    (hok : (step I σ (.start m speed ws)).2 = .ok) (ops : List (Op α L)) (hops : ∀ o ∈ ops, Foreign m s o) :
    ∃ new, told (run I (step I σ (.start m speed ws)).1 ops) m s = told σ m s ++ new ∧ ∀ x ∈ new, Source I speed σ.now σ.now s ws x := by
  obtain ⟨ops₁, τ, hτ, hsim, hquiet, hok', hall⟩ := Dead.restart I t0 det ops₀ σ hσ m s speed ws hq hok
  obtain ⟨ops', hops', hrun⟩ := hall ops hops
  have h := source_quiet I t0 det ops₁ τ hτ m s speed ws (by rw [hsim.detect]; exact hdet) (by rw [hsim.sensors]; exact hs) hquiet hok' ops' hops'
  rwa [hsim.now, hsim.told, hrun.told] at h

/-- The same for a sensor added during a trip. -/
theorem c43_source_added (I : Inter α L) (t0 : α) (det : Nat → Option Bool) (ops₀ : List (Op α L)) (σ : St α L) (hσ : σ = run I (St.init t0 det) ops₀)
    (m s : Nat) (t : Trip α L) (ht : σ.movers.get? m = some t) (hdet : σ.detect m = some true) (hq : Quiet σ m s)
    (hok : (step I σ (.addSensor s)).2 = .ok) (ops : List (Op α L)) (hops : ∀ o ∈ ops, Foreign m s o) :
    ∃ new, told (run I (step I σ (.addSensor s)).1 ops) m s = told σ m s ++ new ∧ ∀ x ∈ new, Source I t.speed t.start σ.now s t.waypoints x := by
  have hw : Wf σ := hσ ▸ run_wf I ops₀ _ (init_wf t0 det)
  have hm : m ∈ σ.movers.keys := by by_contra hc; rw [Dict.get?_eq_none_iff.2 hc] at ht; cases ht
  have hps : ∃ ps, processPair I t s = some ps :=
    find_pair I _ { σ with sensors := if s ∈ σ.sensors then σ.sensors else σ.sensors ++ [s] } m s t (List.mem_map.2 ⟨m, hm, rfl⟩) ht hok
  obtain ⟨ps, hps⟩ := hps
  obtain ⟨b0, htr⟩ := trk_sensor I σ hw m s t ht hdet hq hok ps hps
  obtain ⟨new, h1, h2⟩ := (htr.from.run I ops hops).told
  exact ⟨new, h1, fun x hx => (h2 x hx).source I t s hps⟩

end Verif.Queued
