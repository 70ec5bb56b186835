import Verif.Predict.Inv
import Verif.Predict.Spec

/-! # The rehearsal and the simulation side by side -/

namespace Verif.Predict

variable {K : Type} [Field K] [LinearOrder K] [IsStrictOrderedRing K] {A Op Val : Type}

/-- The Waits of the rehearsal are those of the simulation. -/
structure Same (r : RSt K A Val) (ws : List (Wait K)) : Prop where
  length : r.waits.length = ws.length
  last : ∀ k ∈ r.last, k < ws.length

/-- The simulation goes as the rehearsal, which has come to what the task waits for. -/
structure Follows (M : Methods K A Op Val) (Eqv : K → A → A → Prop) (r : RSt K A Val) (s : St K A Val) : Prop where
  actor : Eqv s.now s.actor r.actor
  routine : r.routine.isSome = s.routine
  same : Same r s.waits
  free : s.waiting = none → r.hist = s.hist ∧ r.status = s.status ∧ Queue [] s.now s.queue s.waits s.next ∧
    (s.status = .running → s.now = r.time ∧ ∀ k ∈ r.last, (r.waits[k]?.map (·.done)).getD false = doneOf s.waits k)
  waits : ∀ c, s.waiting = some c → r.hist = s.hist ++ [.resumed] ∧ r.status = .running ∧ s.status = .running ∧ Awaits s.now s.queue s.waits s.next c ∧
    r.time = fin (dueOf s.waits) c ∧ ∀ k ∈ r.last, k ∈ leaves c ∧ (r.waits[k]?.map (·.done)).getD false = decide (dueOf s.waits k ≤ r.time)

theorem observe_eqv {M : Methods K A Op Val} {Eqv : K → A → A → Prop} (hM : Congruent M Eqv) (t : K) (os : List Op) (hos : ∀ o ∈ os, M.reads o) (a b : A)
    (h : Eqv t a b) : Eqv t (observe M t a os) b := by
  induction os generalizing a with
  | nil => exact h
  | cons o os ih => exact ih (fun x hx => hos x (List.mem_cons_of_mem _ hx)) _ (hM.read t o a b (hos o (List.mem_cons_self ..)) h)

theorem setDone (ws : List (Wait K)) (j : Nat) (hj : j < ws.length) : let ws' := ws.mapIdx fun i w => if i = j then { w with done := true } else w
    (∀ k, doneOf ws' k = (doneOf ws k || decide (Ent.timeout j = .timeout k))) ∧ (∀ k, dueOf ws' k = dueOf ws k) ∧ ws'.length = ws.length := by
  intro ws'
  refine ⟨fun k => ?_, fun k => ?_, by simp [ws']⟩
  · simp only [doneOf, ws', List.getElem?_mapIdx]
    cases hk : ws[k]? with
    | none =>
      have : k ≠ j := fun he => by
        subst he
        rw [List.getElem?_eq_getElem hj] at hk; cases hk
      simp [this.symm]
    | some w =>
      by_cases he : k = j
      · simp [he]
      · simp [he, Ne.symm he]
  · simp only [dueOf, ws', List.getElem?_mapIdx]
    cases hk : ws[k]? with
    | none => rfl
    | some w => by_cases he : k = j <;> simp [he]

/-- What one event does to the task. -/
theorem Follows.tick {M : Methods K A Op Val} {Eqv : K → A → A → Prop} (hM : Congruent M Eqv) {r : RSt K A Val} {s : St K A Val} (h : Follows M Eqv r s) (f : Other K Op)
    (hf : Harmless M f) (hs : ¬ (s.status = .running ∧ s.waiting.isNone = true)) : Follows M Eqv r (tick M f s) := by
  obtain ⟨now, q, act, ws, nx, wt, rt, hist, st⟩ := s
  obtain ⟨ha, hr, ⟨hl, hlast⟩, hfree, hwaits⟩ := h
  dsimp only at ha hr hl hlast hfree hwaits hs
  unfold Verif.Predict.tick
  cases q with
  | nil => exact ⟨ha, hr, ⟨hl, hlast⟩, hfree, hwaits⟩
  | cons i q =>
    obtain ⟨it, iu, ie⟩ := i
    dsimp only
    have hahead : now ≤ it := by
      cases wt with
      | none => exact (hfree rfl).2.2.1.ahead _ (List.mem_cons_self ..)
      | some c => exact (hwaits c rfl).2.2.2.1.queue.ahead _ (List.mem_cons_self ..)
    have ha' : Eqv it act r.actor := hM.later _ _ _ _ hahead ha
    -- an event of the task
    have key : ∀ ws' : List (Wait K), ie ≠ .other → (∀ k, doneOf ws' k = (doneOf ws k || decide (ie = .timeout k))) → (∀ k, dueOf ws' k = dueOf ws k) → ws'.length = ws.length →
        Follows M Eqv r (process ⟨it, q, act, ws', nx, wt, rt, hist, st⟩ ie) := by
      intro ws' hne hd hdue hlen
      have hdue' : dueOf ws' = dueOf ws := funext hdue
      unfold process
      cases wt with
      | none =>
        dsimp only
        obtain ⟨h1, h2, h3, h4⟩ := hfree rfl
        refine ⟨ha', hr, ⟨by dsimp only; omega, fun k hk => by dsimp only; rw [hlen]; exact hlast k hk⟩, fun _ => ⟨h1, h2, h3.pop hd hdue hlen, fun hrun => ?_⟩, fun c hc => by cases hc⟩
        exact absurd ⟨hrun, rfl⟩ hs
      | some c =>
        dsimp only
        obtain ⟨h1, h2, h3, h4, h5, h6⟩ := hwaits c rfl
        have T := h4.turn hne hd hdue hlen
        cases hb : c.is ie with
        | true =>
          rw [if_pos rfl]
          obtain ⟨g1, g2⟩ := T.goes hb
          refine ⟨ha', hr, ⟨by dsimp only; omega, fun k hk => by dsimp only; rw [hlen]; exact hlast k hk⟩, fun _ => ⟨h1, by rw [h2]; exact h3.symm, T.queue, fun _ => ⟨?_, fun k hk => ?_⟩⟩, fun c hc => by cases hc⟩
          · show it = r.time
            rw [h5]; exact g1.symm
          · show _ = doneOf ws' k
            rw [(h6 k hk).2, g2 k (h6 k hk).1, h5, g1]
        | false =>
          rw [if_neg (by simp)]
          refine ⟨ha', hr, ⟨by dsimp only; omega, fun k hk => by dsimp only; rw [hlen]; exact hlast k hk⟩, fun hn => (nomatch hn), fun c' hc => ?_⟩
          cases hc
          obtain ⟨s1, s2, -⟩ := hit_same ie (dueOf ws) c
          refine ⟨h1, h2, h3, T.stays hb, ?_, fun k hk => ?_⟩
          · show _ = fin (dueOf ws') _
            rw [hdue', s1]; exact h5
          · rw [s2]
            show _ ∧ _ = decide (dueOf ws' k ≤ _)
            rw [hdue]
            exact h6 k hk
    cases ie with
    | other =>
      dsimp only
      have ha'' : Eqv it (observe M it act f.reads) r.actor := observe_eqv hM it f.reads hf.1 _ _ ha'
      refine ⟨ha'', hr, ⟨hl, hlast⟩, fun hw => ?_, fun c hc => ?_⟩
      · obtain ⟨h1, h2, h3, h4⟩ := hfree hw
        refine ⟨h1, h2, (h3.pop (ws' := ws) (fun k => by simp) (fun _ => rfl) rfl).others _ hf.2, fun hrun => ?_⟩
        have hw : wt = none := hw
        subst hw
        exact absurd ⟨hrun, rfl⟩ hs
      · obtain ⟨h1, h2, h3, h4, h5, h6⟩ := hwaits c hc
        exact ⟨h1, h2, h3, h4.other rfl _ hf.2, h5, h6⟩
    | timeout j =>
      dsimp only
      have hj : j < ws.length := by
        cases wt with
        | none => exact ((hfree rfl).2.2.1.timeout _ (List.mem_cons_self ..) j rfl).1
        | some c => exact ((hwaits c rfl).2.2.2.1.queue.timeout _ (List.mem_cons_self ..) j rfl).1
      obtain ⟨g1, g2, g3⟩ := setDone ws j hj
      exact key _ (by simp) g1 g2 g3
    | cond id =>
      dsimp only
      exact key ws (by simp) (fun k => by simp) (fun _ => rfl) rfl

theorem finish_length (ws : List (RWait K)) (e : Tree K) : (finish ws e).length = ws.length + (news e).length := by
  simp [finish]

/-- What the rehearsal says of the events directly below. -/
theorem finish_last (ws : List (RWait K)) (e : Tree K) (hf : fresh e = true) (k : Nat)
    (hk : k ∈ lastOf (lenOf ws) ws.length e) :
    ∃ j t, k = ws.length + j ∧ (news e)[j]? = some t ∧ (((finish ws e)[k]?.map (·.done)).getD false) = decide (t ≤ total (lenOf ws) e) := by
  cases e with
  | new t =>
    simp only [lastOf, List.mem_singleton] at hk
    subst hk
    refine ⟨0, t, rfl, rfl, ?_⟩
    simp [finish, news, total]
  | old k => simp [fresh] at hf
  | multi all ms =>
    obtain ⟨p, hp, rfl⟩ := List.mem_map.1 hk
    obtain ⟨j, h1, h2⟩ := direct_new (lenOf ws) ws.length ms (by simpa [fresh] using hf) p hp
    refine ⟨j, p.2, h1, h2, ?_⟩
    have hj : j < (newsL ms).length := (List.getElem?_eq_some_iff.1 h2).1
    simp only [finish, news, List.getElem?_mapIdx]
    rw [List.getElem?_append_right (by omega), h1, Nat.add_sub_cancel_left, List.getElem?_map, h2]
    simp only [Option.map_some, Option.getD_some]
    by_cases ht : p.2 ≤ total (lenOf ws) (.multi all ms)
    · rw [if_pos]
      · simp [ht]
      · exact List.mem_map.2 ⟨p, List.mem_filter.2 ⟨hp, by simpa using ht⟩, h1⟩
    · rw [if_neg, decide_eq_false ht]
      · split <;> rfl
      · intro hm
        obtain ⟨p', hp', he⟩ := List.mem_map.1 hm
        obtain ⟨hp', ht'⟩ := List.mem_filter.1 hp'
        obtain ⟨j', h1', h2'⟩ := direct_new (lenOf ws) ws.length ms (by simpa [fresh] using hf) p' hp'
        have : j' = j := by omega
        subst this
        rw [h2'] at h2
        have : p'.2 = p.2 := by simpa using h2
        rw [this] at ht'
        exact ht (by simpa using ht')

/-- The new Waits directly below are among those waited for. -/
theorem leaves_direct (now : K) (len : Nat → K) (ms : List (Tree K)) (hf : freshL ms = true) (b : Making K) (k : Nat) (hk : k ∈ (direct len b.waits.length ms).map (·.1)) :
    k ∈ leavesL (buildL now b ms).2 := by
  induction ms generalizing b with
  | nil => cases hk
  | cons m ms ih =>
    simp only [freshL, Bool.and_eq_true] at hf
    simp only [buildL, leavesL, List.mem_append]
    have hlen : (build now b m).1.waits.length = b.waits.length + (news m).length := by rw [build_waits]; simp
    have ih := ih hf.2 (build now b m).1
    rw [hlen] at ih
    cases m with
    | new t =>
      simp only [direct, List.map_cons, List.mem_cons] at hk
      rcases hk with rfl | hk
      · left; simp [build, leaves]
      · exact .inr (ih hk)
    | old k => simp [fresh] at hf
    | multi all ms' => exact .inr (ih hk)

theorem last_leaf (now : K) (ws : List (Wait K)) (n nx : Nat) (hn : n = ws.length) (len : Nat → K) (e : Tree K) (hf : fresh e = true) (k : Nat)
    (hk : k ∈ lastOf len n e) : k ∈ leaves (build now ⟨ws, nx, []⟩ e).2 := by
  subst hn
  cases e with
  | new t => simpa [build, leaves, lastOf] using hk
  | old k => simp [fresh] at hf
  | multi all ms => exact leaves_direct now len ms (by simpa [fresh] using hf) ⟨ws, nx, []⟩ k hk

mutual
/-- The time does not depend on Waits that are not there. -/
theorem total_fresh (len len' : Nat → K) : ∀ e : Tree K, fresh e = true → total len e = total len' e
  | .new t, _ => rfl
  | .old k, h => by simp [fresh] at h
  | .multi all ms, h => by simp only [total]; rw [totalL_fresh len len' ms (by simpa [fresh] using h)]
theorem totalL_fresh (len len' : Nat → K) : ∀ ms : List (Tree K), freshL ms = true → totalL len ms = totalL len' ms
  | [], _ => rfl
  | m :: ms, h => by
    simp only [freshL, Bool.and_eq_true] at h
    simp only [totalL]
    rw [total_fresh len len' m h.1, totalL_fresh len len' ms h.2]
end

mutual
theorem valid_fresh (n n' : Nat) : ∀ e : Tree K, fresh e = true → valid n e = valid n' e
  | .new t, _ => rfl
  | .old k, h => by simp [fresh] at h
  | .multi all ms, h => by simp only [valid]; rw [validL_fresh n n' ms (by simpa [fresh] using h)]
theorem validL_fresh (n n' : Nat) : ∀ ms : List (Tree K), freshL ms = true → validL n ms = validL n' ms
  | [], _ => rfl
  | m :: ms, h => by
    simp only [freshL, Bool.and_eq_true] at h
    simp only [validL]
    rw [valid_fresh n n' m h.1, validL_fresh n n' ms h.2]
end

/-- A command, rehearsed and executed. -/
theorem Follows.exec {M : Methods K A Op Val} {Eqv : K → A → A → Prop} (hM : Congruent M Eqv) {r : RSt K A Val} {s : St K A Val} (h : Follows M Eqv r s)
    (hs : s.status = .running) (hw : s.waiting = none) (c : Cmd K Op) (hc : Predictable r c) : Follows M Eqv (rstep M r c) (exec M s c) := by
  obtain ⟨now, q, act, ws, nx, wt, rt, hist, st⟩ := s
  obtain ⟨rnow, rr, ract, rws, rh, rst, rlast⟩ := r
  obtain ⟨ha, hr, ⟨hl, hlast⟩, hfree, -⟩ := h
  dsimp only at ha hr hl hlast hfree hs hw
  subst hs hw
  obtain ⟨rfl, rfl, hq, hrun⟩ := hfree rfl
  obtain ⟨hnow, hflag⟩ := hrun rfl
  simp only [RSt.time] at hnow hflag
  cases c with
  | act o =>
    have hz : rr.getD 0 = 0 := hc
    have hnow : now = rnow := by rw [hnow, hz, add_zero]
    subst hnow
    obtain ⟨e1, e2⟩ := hM.step now o _ _ ha
    refine ⟨e2, hr, ⟨hl, hlast⟩, fun _ => ⟨?_, rfl, hq, fun _ => ⟨?_, hflag⟩⟩, fun c hc => by cases hc⟩
    · show _ ++ [_] = _ ++ [_]
      rw [e1]
    · show now = now + rr.getD 0
      rw [hz, add_zero]
  | clock =>
    have hz : rr.getD 0 = 0 := hc
    have hnow : now = rnow := by rw [hnow, hz, add_zero]
    subst hnow
    refine ⟨ha, hr, ⟨hl, hlast⟩, fun _ => ⟨rfl, rfl, hq, fun _ => ⟨?_, hflag⟩⟩, fun c hc => by cases hc⟩
    show now = now + rr.getD 0
    rw [hz, add_zero]
  | yield e =>
    obtain ⟨hf, ht⟩ := hc
    simp only [rstep, Verif.Predict.exec]
    rw [hl, ht, Bool.and_true]
    cases hv : valid ws.length e with
    | false =>
      rw [if_neg (by simp), if_neg (by simp)]
      exact ⟨ha, hr, ⟨hl, hlast⟩, fun _ => ⟨rfl, rfl, hq, fun hh => by cases hh⟩, fun c hc => by cases hc⟩
    | true =>
      rw [if_pos rfl, if_pos rfl]
      obtain ⟨hA, hfin, hdue⟩ := hq.yield e hf ht ⟨_, hv⟩
      rw [show (build now ⟨ws, nx, []⟩ e).2.processed (doneOf (build now ⟨ws, nx, []⟩ e).1.waits) = false from hA.unp]
      simp only [Bool.false_eq_true, if_false]
      have htime : (if rr.isSome = true then rnow else rnow + total (lenOf rws) e) + (rr.map (· + total (lenOf rws) e)).getD 0 = now + total (lenOf rws) e := by
        rw [hnow]
        cases rr with
        | none => simp
        | some x => simp [add_assoc]
      refine ⟨ha, ?_, ⟨?_, fun k hk => ?_⟩, fun hn => (nomatch hn), fun c hc => ?_⟩
      · dsimp only
        rw [← hr]
        cases rr <;> rfl
      · dsimp only
        rw [finish_length, build_waits, List.length_append, List.length_map, hl]
      · dsimp only at hk ⊢
        exact hA.leaves k (last_leaf now ws _ nx rfl _ e hf k hk)
      · cases hc
        refine ⟨rfl, rfl, rfl, hA, ?_, fun k hk => ?_⟩
        · dsimp only [RSt.time]
          rw [hfin, htime, total_fresh (lenOf rws) (fun _ => 0) e hf]
        · dsimp only at hk
          refine ⟨last_leaf now ws _ nx rfl _ e hf k hk, ?_⟩
          rw [← hl] at hk
          obtain ⟨j, t, rfl, hj, hfl⟩ := finish_last rws e hf k hk
          have h1 := hdue j t hj
          rw [← hl] at h1
          rw [hfl, decide_eq_decide]
          show _ ↔ dueOf (build now ⟨ws, nx, []⟩ e).1.waits (rws.length + j) ≤ (if rr.isSome = true then rnow else rnow + total (lenOf rws) e) + (rr.map (· + total (lenOf rws) e)).getD 0
          rw [htime, h1]
          exact (add_le_add_iff_left now).symm
  | complete k =>
    have hk : k ∈ rlast := hc
    simp only [rstep, Verif.Predict.exec]
    have hk1 := hlast k hk
    have hfk := hflag k hk
    rw [doneOf] at hfk
    rw [List.getElem?_eq_getElem (show k < rws.length by omega), List.getElem?_eq_getElem hk1] at hfk ⊢
    simp only [Option.map_some, Option.getD_some] at hfk
    dsimp only
    rw [hfk]
    exact ⟨ha, hr, ⟨hl, hlast⟩, fun _ => ⟨rfl, rfl, hq, fun _ => ⟨hnow, hflag⟩⟩, fun c hc => by cases hc⟩
  | enter =>
    simp only [rstep, Verif.Predict.exec]
    cases rr with
    | some x =>
      have : rt = true := hr.symm
      subst this
      exact ⟨ha, hr, ⟨hl, hlast⟩, fun _ => ⟨rfl, rfl, hq, fun hh => by cases hh⟩, fun c hc => by cases hc⟩
    | none =>
      have : rt = false := hr.symm
      subst this
      exact ⟨ha, rfl, ⟨hl, hlast⟩, fun _ => ⟨rfl, rfl, hq, fun _ => ⟨by simpa [RSt.time] using hnow, hflag⟩⟩, fun c hc => by cases hc⟩
  | leave =>
    simp only [rstep, Verif.Predict.exec]
    cases rr with
    | some x =>
      have : rt = true := hr.symm
      subst this
      exact ⟨ha, rfl, ⟨hl, hlast⟩, fun _ => ⟨rfl, rfl, hq, fun _ => ⟨by simpa [RSt.time] using hnow, hflag⟩⟩, fun c hc => by cases hc⟩
    | none =>
      have : rt = false := hr.symm
      subst this
      exact ⟨ha, hr, ⟨hl, hlast⟩, fun _ => ⟨rfl, rfl, hq, fun hh => by cases hh⟩, fun c hc => by cases hc⟩
  | ret =>
    simp only [rstep, Verif.Predict.exec]
    cases rr with
    | some x =>
      have : rt = true := hr.symm
      subst this
      exact ⟨ha, hr, ⟨hl, hlast⟩, fun _ => ⟨rfl, rfl, hq, fun hh => by cases hh⟩, fun c hc => by cases hc⟩
    | none =>
      have : rt = false := hr.symm
      subst this
      exact ⟨ha, hr, ⟨hl, hlast⟩, fun _ => ⟨rfl, rfl, hq, fun hh => by cases hh⟩, fun c hc => by cases hc⟩

theorem Follows.init {M : Methods K A Op Val} {Eqv : K → A → A → Prop} (t0 : K) (a b : A) (h0 : Eqv t0 a b) (q : List (Item K)) (hq : Before t0 q) :
    Follows M Eqv (rinit t0 b : RSt K A Val) (init t0 a q) := by
  refine ⟨h0, rfl, ⟨rfl, fun k hk => by cases hk⟩, fun _ => ⟨rfl, rfl, ?_, fun _ => ⟨?_, fun k hk => by cases hk⟩⟩, fun c hc => by cases hc⟩
  · refine ⟨hq.sorted.imp fun h => ⟨h, fun _ hid => (List.not_mem_nil hid).elim⟩, hq.ahead, ?_, fun i hi k hk => ?_, fun k hk => ?_, fun k hk => ?_, fun i hi id hid => ?_⟩
    · have : ((q.map (·.ent)).filter (· ≠ .other)) = [] := by
        rw [List.filter_eq_nil_iff]
        intro x hx
        obtain ⟨y, hy, rfl⟩ := List.mem_map.1 hx
        simp [hq.other y hy]
      show ((q.map (·.ent)).filter (· ≠ .other)).Nodup
      rw [this]
      exact List.nodup_nil
    · rw [hq.other i hi] at hk; cases hk
    · cases hk
    · simp [Verif.Predict.init, doneOf] at hk
    · rw [hq.other i hi] at hid; cases hid
  · simp [Verif.Predict.init, rinit, RSt.time]

/-- Every state of the simulation goes with one of the rehearsal. -/
theorem follows {M : Methods K A Op Val} {Eqv : K → A → A → Prop} (hM : Congruent M Eqv) (code : Code K Op Val) (t0 : K) (a : A) (hp : Plain M code t0 a)
    (fs : List (Other K Op)) (hfs : ∀ f ∈ fs, Harmless M f) (n : Nat) (s : St K A Val) (h : Follows M Eqv (rehearse M code t0 a n) s) :
    ∃ n, Follows M Eqv (rehearse M code t0 a n) (simulate M code s fs) := by
  induction fs generalizing s n with
  | nil => exact ⟨n, h⟩
  | cons f fs ih =>
    have hfs' := fun g hg => hfs g (List.mem_cons_of_mem _ hg)
    simp only [simulate]
    by_cases hx : s.status = .running ∧ s.waiting.isNone = true
    · have hw : s.waiting = none := by simpa using hx.2
      obtain ⟨h1, h2, -, -⟩ := h.free hw
      refine ih hfs' (n + 1) _ ?_
      unfold step
      rw [if_pos hx]
      have hr : (rehearse M code t0 a n).status = .running := by rw [h2]; exact hx.1
      have : rehearse M code t0 a (n + 1) = rstep M (rehearse M code t0 a n) (code (rehearse M code t0 a n).hist) := by
        show (if _ then _ else _) = _
        rw [if_pos hr]
      rw [this, ← h1]
      exact h.exec hM hx.1 hw _ (hp n hr)
    · refine ih hfs' n _ ?_
      unfold step
      rw [if_neg hx]
      exact h.tick hM f (hfs f (List.mem_cons_self ..)) hx

/-! ### The clock of the rehearsal -/

theorem rstep_time (M : Methods K A Op Val) (r : RSt K A Val) (c : Cmd K Op) (hc : Predictable r c) : r.time ≤ (rstep M r c).time := by
  obtain ⟨rnow, rr, ract, rws, rh, rst, rlast⟩ := r
  cases c with
  | yield e =>
    simp only [rstep]
    split
    · rename_i hv
      have := total_nonneg (lenOf rws) _ e hc.1 (by simp only [Bool.and_eq_true] at hv; exact hv.1)
      simp only [RSt.time]
      cases rr with
      | none => simpa using this
      | some x => simpa using this
    · exact le_refl _
  | complete k => simp only [rstep]; split <;> exact le_refl _
  | enter => simp only [rstep]; cases rr <;> simp [RSt.time]
  | leave => simp only [rstep]; cases rr <;> simp [RSt.time]
  | ret => simp only [rstep]; split <;> exact le_refl _
  | act o => exact le_refl _
  | clock => exact le_refl _

theorem rehearse_mono (M : Methods K A Op Val) (code : Code K Op Val) (t0 : K) (a : A) (hp : Plain M code t0 a) (n m : Nat) (h : n ≤ m) :
    (rehearse M code t0 a n).time ≤ (rehearse M code t0 a m).time := by
  induction m with
  | zero =>
    have : n = 0 := by omega
    rw [this]
  | succ m ih =>
    rcases Nat.lt_or_ge m n with hlt | hge
    · have : n = m + 1 := by omega
      rw [this]
    · refine (ih hge).trans ?_
      show _ ≤ (if _ then _ else _ : RSt K A Val).time
      split
      · rename_i hr
        exact rstep_time M _ _ (hp m hr)
      · exact le_refl _

theorem rehearse_over (M : Methods K A Op Val) (code : Code K Op Val) (t0 : K) (a : A) (n m : Nat) (h : n ≤ m) (hs : (rehearse M code t0 a n).status ≠ .running) :
    rehearse M code t0 a m = rehearse M code t0 a n := by
  induction m with
  | zero =>
    have : n = 0 := by omega
    rw [this]
  | succ m ih =>
    rcases Nat.lt_or_ge m n with hlt | hge
    · have : n = m + 1 := by omega
      rw [this]
    · show (if _ then _ else _) = _
      rw [ih hge, if_neg hs]

theorem rstep_done (M : Methods K A Op Val) (r : RSt K A Val) (c : Cmd K Op) (hr : r.status = .running) (h : (rstep M r c).status = .finished) : (rstep M r c).routine = none := by
  obtain ⟨rnow, rr, ract, rws, rh, rst, rlast⟩ := r
  dsimp only at hr
  subst hr
  cases c with
  | yield e => simp only [rstep] at h; split at h <;> cases h
  | complete k => simp only [rstep] at h; split at h <;> cases h
  | enter => simp only [rstep] at h; split at h <;> cases h
  | leave => simp only [rstep] at h; split at h <;> cases h
  | ret =>
    simp only [rstep] at h ⊢
    cases rr with
    | none => rfl
    | some x => cases h
  | act o => cases h
  | clock => cases h

theorem rehearse_done (M : Methods K A Op Val) (code : Code K Op Val) (t0 : K) (a : A) (n : Nat) (h : (rehearse M code t0 a n).status = .finished) :
    (rehearse M code t0 a n).routine = none := by
  induction n with
  | zero => rfl
  | succ n ih =>
    have e : rehearse M code t0 a (n + 1) = if (rehearse M code t0 a n).status = .running then rstep M (rehearse M code t0 a n) (code (rehearse M code t0 a n).hist)
        else rehearse M code t0 a n := rfl
    rw [e] at h ⊢
    split at h
    · rename_i hr
      rw [if_pos hr]
      exact rstep_done M _ _ hr h
    · rename_i hr
      rw [if_neg hr]
      exact ih h

end Verif.Predict
