import Verif.Predict.Props
import Verif.Predict.Linear

/-!
# Where a rehearsal does not predict

The conditions of `Plain` are needed: for each of them there are tasks, for all times, that are rehearsed otherwise than they are executed. The other processes do nothing here.
-/

namespace Verif.Predict

variable {K : Type} [Field K] [LinearOrder K] [IsStrictOrderedRing K] {A Op Val : Type}

/-- Code that does one thing after the other. -/
def script (cs : List (Cmd K Op)) : Code K Op Val := fun h => (cs[h.length]?).getD .ret

/-- An actor without anything. -/
def noActor : Methods K Unit Unit Unit := ⟨fun _ _ _ => ((), ()), fun _ => True⟩

/-- The other processes do nothing. -/
def quiet (n : Nat) : List (Other K Op) := List.replicate n ⟨[], []⟩

theorem simulate_quiet (M : Methods K A Op Val) (code : Code K Op Val) (s : St K A Val) (n : Nat) :
    simulate M code s (quiet (n + 1)) = simulate M code (step M code ⟨[], []⟩ s) (quiet n) := rfl

/-- `env.now` in a routine: the rehearsal does not pass the time of a routine until it is over. -/
theorem c77_routine_clock (t0 d : K) (hd : 0 < d) :
    (rehearse noActor (script [.enter, .yield (.new d), .clock, .leave]) t0 () 3).hist = [.resumed, .resumed, .time t0] ∧
      (simulate noActor (script [.enter, .yield (.new d), .clock, .leave]) (init t0 () []) (quiet 4)).hist = [.resumed, .resumed, .time (t0 + d)] := by
  constructor
  · simp [rehearse, rstep, script, rinit, valid, hasTime, hd.le, finish, news]
  · simp [simulate, quiet, List.replicate, step, exec, script, init, valid, hd.le, build, doneOf, CTree.processed, scheduleL, schedule, tick, process, hit, CTree.is]

/-- The same `Wait` is waited for again: in the simulation this is over at once, in the rehearsal it takes the time again. -/
theorem c77_again (t0 d : K) (hd : 0 < d) :
    (rehearse noActor (script [.yield (.new d), .yield (.old 0), .clock]) t0 () 3).hist = [.resumed, .resumed, .time (t0 + d + d)] ∧
      (simulate noActor (script [.yield (.new d), .yield (.old 0), .clock]) (init t0 () []) (quiet 4)).hist = [.resumed, .resumed, .time (t0 + d)] := by
  constructor
  · simp [rehearse, rstep, script, rinit, valid, hasTime, hd.le, finish, news, total, lenOf, waits]
  · simp [simulate, quiet, List.replicate, step, exec, script, init, valid, hd.le, build, doneOf, CTree.processed, scheduleL, schedule, tick, process, hit, CTree.is]

/-- Nothing to wait for: in the simulation it goes on, the rehearsal raises. -/
theorem c77_nothing (all : Bool) (t0 : K) :
    (rehearse noActor (script [.yield (.multi all []), .clock]) t0 () 2).status = .raised ∧
      (simulate noActor (script [.yield (.multi all []), .clock]) (init t0 () []) (quiet 4)).status = .finished := by
  constructor
  · simp [rehearse, rstep, script, rinit, valid, validL, hasTime]
  · simp [simulate, quiet, List.replicate, step, exec, script, init, valid, validL, build, buildL, CTree.processed, scheduleL, schedule, tick, process, hit, hitL, CTree.is, check]

/-- An event further below: it is complete in the simulation, but not in the rehearsal. -/
theorem c77_below (t0 d : K) (hd : 0 < d) :
    (rehearse noActor (script [.yield (.multi true [.multi true [.new d]]), .complete 0]) t0 () 2).hist = [.resumed, .flag false] ∧
      (simulate noActor (script [.yield (.multi true [.multi true [.new d]]), .complete 0]) (init t0 () []) (quiet 5)).hist = [.resumed, .flag true] := by
  constructor
  · simp [rehearse, rstep, script, rinit, valid, validL, hasTime, hasTimeL, hd.le, finish, news, newsL, direct, waits, waitsL]
  · set code : Code K Unit Unit := script [.yield (.multi true [.multi true [.new d]]), .complete 0] with hcode
    have c0 : code [] = .yield (.multi true [.multi true [.new d]]) := rfl
    have c1 : code [.resumed] = .complete 0 := rfl
    have s1 : step noActor code ⟨[], []⟩ (init t0 () []) = ⟨t0, [⟨t0 + d, false, .timeout 0⟩], (), [⟨d, t0 + d, false⟩], 2,
        some (.node 1 true 0 .pending [.node 0 true 0 .pending [.leaf 0]]), false, [], .running⟩ := by
      unfold step
      rw [if_pos ⟨rfl, rfl⟩]
      show exec noActor (init t0 () []) (code []) = _
      rw [c0]
      simp [exec, init, valid, validL, hd.le, build, buildL, doneOf, CTree.processed, check, scheduleL, schedule]
    have s2 : step noActor code ⟨[], []⟩ ⟨t0, [⟨t0 + d, false, .timeout 0⟩], (), [⟨d, t0 + d, false⟩], 2,
        some (.node 1 true 0 .pending [.node 0 true 0 .pending [.leaf 0]]), false, [], .running⟩ = ⟨t0 + d, [⟨t0 + d, false, .cond 0⟩], (), [⟨d, t0 + d, true⟩], 2,
        some (.node 1 true 0 .pending [.node 0 true 1 .triggered [.leaf 0]]), false, [], .running⟩ := by
      simp [step, tick, process, hit, hitL, CTree.is, check, scheduleL, schedule]
    have s3 : step noActor code ⟨[], []⟩ ⟨t0 + d, [⟨t0 + d, false, .cond 0⟩], (), [⟨d, t0 + d, true⟩], 2,
        some (.node 1 true 0 .pending [.node 0 true 1 .triggered [.leaf 0]]), false, [], .running⟩ = ⟨t0 + d, [⟨t0 + d, false, .cond 1⟩], (), [⟨d, t0 + d, true⟩], 2,
        some (.node 1 true 1 .triggered [.node 0 true 1 .processed [.leaf 0]]), false, [], .running⟩ := by
      simp [step, tick, process, hit, hitL, CTree.is, check, scheduleL, schedule]
    have s4 : step noActor code ⟨[], []⟩ ⟨t0 + d, [⟨t0 + d, false, .cond 1⟩], (), [⟨d, t0 + d, true⟩], 2,
        some (.node 1 true 1 .triggered [.node 0 true 1 .processed [.leaf 0]]), false, [], .running⟩ = ⟨t0 + d, [], (), [⟨d, t0 + d, true⟩], 2, none, false, [.resumed], .running⟩ := by
      simp [step, tick, process, hit, hitL, CTree.is, check, scheduleL]
    have s5 : step noActor code ⟨[], []⟩ ⟨t0 + d, [], (), [⟨d, t0 + d, true⟩], 2, none, false, [.resumed], .running⟩ =
        ⟨t0 + d, [], (), [⟨d, t0 + d, true⟩], 2, none, false, [.resumed, .flag true], .running⟩ := by
      simp [step, c1, exec]
    rw [simulate_quiet, s1, simulate_quiet, s2, simulate_quiet, s3, simulate_quiet, s4, simulate_quiet, s5]
    rfl

/-- An event left over from an `Any` is complete when its time has come, but not in the rehearsal. -/
theorem c77_left (t0 d e : K) (hd : 0 < d) (he : d < e) :
    (rehearse noActor (script [.yield (.multi false [.new d, .new e]), .yield (.new e), .complete 1]) t0 () 3).hist = [.resumed, .resumed, .flag false] ∧
      (simulate noActor (script [.yield (.multi false [.new d, .new e]), .yield (.new e), .complete 1]) (init t0 () []) (quiet 7)).hist = [.resumed, .resumed, .flag true] := by
  have he0 : 0 < e := hd.trans he
  constructor
  · simp [rehearse, rstep, script, rinit, valid, validL, hasTime, hasTimeL, hd.le, he0.le, finish, news, newsL, direct, waits, waitsL, total, totalL, agg, minD, he.le, he]
  · have hlt : t0 + d < t0 + e := by linarith
    have hlt2 : t0 + e < t0 + d + e := by linarith
    have b1 : (⟨t0 + d, false, .timeout 0⟩ : Item K).before ⟨t0 + e, false, .timeout 1⟩ = true := by simp [Item.before, he]
    have b2 : (⟨t0 + e, false, .timeout 1⟩ : Item K).before ⟨t0 + d, false, .cond 0⟩ = false := by
      simp only [Item.before, Bool.or_eq_false_iff, decide_eq_false_iff_not, Bool.and_eq_false_iff]
      exact ⟨not_lt.2 hlt.le, .inl hlt.ne'⟩
    have b3 : (⟨t0 + e, false, .timeout 1⟩ : Item K).before ⟨t0 + d + e, false, .timeout 2⟩ = true := by
      simp only [Item.before, Bool.or_eq_true, decide_eq_true_eq]
      exact .inl hlt2
    set code : Code K Unit Unit := script [.yield (.multi false [.new d, .new e]), .yield (.new e), .complete 1] with hcode
    have c0 : code [] = .yield (.multi false [.new d, .new e]) := rfl
    have c1 : code [.resumed] = .yield (.new e) := rfl
    have c2 : code [.resumed, .resumed] = .complete 1 := rfl
    have s1 : step noActor code ⟨[], []⟩ (init t0 () []) = ⟨t0, [⟨t0 + d, false, .timeout 0⟩, ⟨t0 + e, false, .timeout 1⟩], (), [⟨d, t0 + d, false⟩, ⟨e, t0 + e, false⟩], 1,
        some (.node 0 false 0 .pending [.leaf 0, .leaf 1]), false, [], .running⟩ := by
      unfold step
      rw [if_pos ⟨rfl, rfl⟩]
      show exec noActor (init t0 () []) (code []) = _
      rw [c0]
      simp [exec, init, valid, validL, hd.le, he0.le, build, buildL, doneOf, CTree.processed, check, scheduleL, schedule, b1]
    have s2 : step noActor code ⟨[], []⟩ ⟨t0, [⟨t0 + d, false, .timeout 0⟩, ⟨t0 + e, false, .timeout 1⟩], (), [⟨d, t0 + d, false⟩, ⟨e, t0 + e, false⟩], 1,
        some (.node 0 false 0 .pending [.leaf 0, .leaf 1]), false, [], .running⟩ = ⟨t0 + d, [⟨t0 + d, false, .cond 0⟩, ⟨t0 + e, false, .timeout 1⟩], (), [⟨d, t0 + d, true⟩, ⟨e, t0 + e, false⟩], 1,
        some (.node 0 false 1 .triggered [.leaf 0, .leaf 1]), false, [], .running⟩ := by
      simp [step, tick, process, hit, hitL, CTree.is, check, scheduleL, schedule, b2]
    have s3 : step noActor code ⟨[], []⟩ ⟨t0 + d, [⟨t0 + d, false, .cond 0⟩, ⟨t0 + e, false, .timeout 1⟩], (), [⟨d, t0 + d, true⟩, ⟨e, t0 + e, false⟩], 1,
        some (.node 0 false 1 .triggered [.leaf 0, .leaf 1]), false, [], .running⟩ = ⟨t0 + d, [⟨t0 + e, false, .timeout 1⟩], (), [⟨d, t0 + d, true⟩, ⟨e, t0 + e, false⟩], 1,
        none, false, [.resumed], .running⟩ := by
      simp [step, tick, process, hit, hitL, CTree.is, check, scheduleL]
    have s4 : step noActor code ⟨[], []⟩ ⟨t0 + d, [⟨t0 + e, false, .timeout 1⟩], (), [⟨d, t0 + d, true⟩, ⟨e, t0 + e, false⟩], 1, none, false, [.resumed], .running⟩ =
        ⟨t0 + d, [⟨t0 + e, false, .timeout 1⟩, ⟨t0 + d + e, false, .timeout 2⟩], (), [⟨d, t0 + d, true⟩, ⟨e, t0 + e, false⟩, ⟨e, t0 + d + e, false⟩], 1, some (.leaf 2), false, [.resumed], .running⟩ := by
      simp [step, c1, exec, valid, he0.le, build, doneOf, CTree.processed, scheduleL, schedule, b3]
    have s5 : step noActor code ⟨[], []⟩
        ⟨t0 + d, [⟨t0 + e, false, .timeout 1⟩, ⟨t0 + d + e, false, .timeout 2⟩], (), [⟨d, t0 + d, true⟩, ⟨e, t0 + e, false⟩, ⟨e, t0 + d + e, false⟩], 1, some (.leaf 2), false, [.resumed], .running⟩ =
        ⟨t0 + e, [⟨t0 + d + e, false, .timeout 2⟩], (), [⟨d, t0 + d, true⟩, ⟨e, t0 + e, true⟩, ⟨e, t0 + d + e, false⟩], 1, some (.leaf 2), false, [.resumed], .running⟩ := by
      simp [step, tick, process, hit, CTree.is, scheduleL]
    have s6 : step noActor code ⟨[], []⟩
        ⟨t0 + e, [⟨t0 + d + e, false, .timeout 2⟩], (), [⟨d, t0 + d, true⟩, ⟨e, t0 + e, true⟩, ⟨e, t0 + d + e, false⟩], 1, some (.leaf 2), false, [.resumed], .running⟩ =
        ⟨t0 + d + e, [], (), [⟨d, t0 + d, true⟩, ⟨e, t0 + e, true⟩, ⟨e, t0 + d + e, true⟩], 1, none, false, [.resumed, .resumed], .running⟩ := by
      simp [step, tick, process, hit, CTree.is, scheduleL]
    have s7 : step noActor code ⟨[], []⟩ ⟨t0 + d + e, [], (), [⟨d, t0 + d, true⟩, ⟨e, t0 + e, true⟩, ⟨e, t0 + d + e, true⟩], 1, none, false, [.resumed, .resumed], .running⟩ =
        ⟨t0 + d + e, [], (), [⟨d, t0 + d, true⟩, ⟨e, t0 + e, true⟩, ⟨e, t0 + d + e, true⟩], 1, none, false, [.resumed, .resumed, .flag true], .running⟩ := by
      simp [step, c2, exec]
    rw [simulate_quiet, s1, simulate_quiet, s2, simulate_quiet, s3, simulate_quiet, s4, simulate_quiet, s5, simulate_quiet, s6, simulate_quiet, s7]
    rfl

/-- What an actor reads in a routine that changes it over time, at rate `r`: the rehearsal reads it as it was at the begin. -/
theorem c77_routine_value (c : Active.Cfg) (hk : c.kind 0 = some .linear) (a : Active.St) (t0 d v r : Rat) (hd : 0 < d) (hv : a.value 0 = some v) (ha : a.active 0 = none) (hl : a.tbs 0 = []) :
    let code : Code Rat AOp Active.Out := script [.act (.activate 0 1 (some r)), .enter, .yield (.new d), .act (.read 0), .leave]
    (rehearse (actor c) code t0 a 4).hist = [.val .ok, .resumed, .resumed, .val (.val v)] ∧
      (simulate (actor c) code (init t0 a []) (quiet 5)).hist = [.val .ok, .resumed, .resumed, .val (.val (v + d * r))] := by
  intro code
  have hs : Still c 0 a a := ⟨rfl, rfl, fun _ _ d hd => (by rw [ha] at hd; cases hd), fun _ _ => ha⟩
  -- the activation
  obtain ⟨a1, x, hx1, hx2, hx3, hx4, hx5⟩ : ∃ a1 x, Active.activate c { a with now := t0 } 0 1 (some r) = (a1, .ok) ∧ a1.value 0 = some v ∧ a1.active 0 = some x ∧ x.rate = some r ∧ x.started = t0 := by
    unfold Active.activate
    rw [hk]
    dsimp only
    rw [if_neg (by simp [Active.lockRefused, hl])]
    obtain ⟨a', d', p1, p2, p3, p4, p5, -, -⟩ := read_runs (c := c) (n := 0) (a := Active.setActive (Active.lock { a with now := t0 } 0 1) 0 t0 (some 1) (some r) none none) (x := v) (r := r)
      (d := ⟨t0, some 1, some r, none.or ((a.active 0).bind (·.rateTasks)), none.or ((a.active 0).bind (·.last))⟩) hk hv (by simp only [Active.setActive, upd_eq]; rfl) rfl (le_refl _)
    rw [p1]
    dsimp only
    rw [if_neg (by simp)]
    obtain ⟨r1, r2, -⟩ := record_same c a' 0 .activating
    refine ⟨_, d', rfl, ?_, ?_, p4, p5⟩
    · rw [r1, p2, upd_eq]
      show some (v + (t0 - t0) * r) = _
      rw [sub_self, zero_mul, add_zero]
    · rw [r2, p3, upd_eq]
  -- the value read at time `t`
  have hread : ∀ t, t0 ≤ t → ∃ a2, Active.read c { a1 with now := t } 0 = (a2, .val (v + (t - t0) * r)) := fun t ht => by
    obtain ⟨a', d', p1, -⟩ := read_runs (c := c) (n := 0) (a := { a1 with now := t }) hk hx2 hx3 hx4 (by rw [hx5]; exact ht)
    rw [hx5] at p1
    exact ⟨a', p1⟩
  constructor
  · obtain ⟨a2, h2⟩ := hread t0 (le_refl _)
    rw [sub_self, zero_mul, add_zero] at h2
    simp [rehearse, rstep, code, script, rinit, valid, hasTime, hd.le, finish, news, actor, acall, hx1, h2]
  · obtain ⟨a2, h2⟩ := hread (t0 + d) (by linarith)
    rw [add_sub_cancel_left] at h2
    simp [simulate, quiet, List.replicate, step, exec, code, script, init, valid, hd.le, build, doneOf, CTree.processed, scheduleL, schedule, tick, process, hit, CTree.is, actor, acall, hx1, h2]

/-- A state that is active when the rehearsal begins: the understudy has its value, but there it does not change. -/
theorem c77_active (c : Active.Cfg) (hk : c.kind 0 = some .linear) (a : Active.St) (t0 d v r : Rat) (x : Active.Data) (hd : 0 < d) (hv : a.value 0 = some v) (ha : a.active 0 = some x)
    (hr : x.rate = some r) (hx : x.started = t0) :
    let code : Code Rat AOp Active.Out := script [.yield (.new d), .act (.read 0)]
    (rehearse (actor c) code t0 (understudy c t0 a) 2).hist = [.resumed, .val (.val v)] ∧
      (simulate (actor c) code (init t0 a []) (quiet 3)).hist = [.resumed, .val (.val (v + d * r))] := by
  intro code
  have hread : ∀ t, t0 ≤ t → ∃ a2, Active.read c { a with now := t } 0 = (a2, .val (v + (t - t0) * r)) := fun t ht => by
    obtain ⟨a', d', p1, -⟩ := read_runs (c := c) (n := 0) (a := { a with now := t }) hk hv ha hr (by rw [hx]; exact ht)
    rw [hx] at p1
    exact ⟨a', p1⟩
  constructor
  · obtain ⟨a2, h2⟩ := hread t0 (le_refl _)
    rw [sub_self, zero_mul, add_zero] at h2
    have hval : (understudy c t0 a).value 0 = some v := by simp [understudy, hk, h2]
    have h3 : ∀ t, (Active.read c { understudy c t0 a with now := t } 0).2 = .val v := fun t => by
      have hact : (understudy c t0 a).active 0 = none := rfl
      simp only [Active.read, hk, Active.readLinear, hval, hact]
    simp [rehearse, rstep, code, script, rinit, valid, hasTime, hd.le, finish, news, actor, acall, h3]
  · obtain ⟨a2, h2⟩ := hread (t0 + d) (by linarith)
    rw [add_sub_cancel_left] at h2
    simp [simulate, quiet, List.replicate, step, exec, code, script, init, valid, hd.le, build, doneOf, CTree.processed, scheduleL, schedule, tick, process, hit, CTree.is, actor, acall, h2]

/-- A state that another task has locked: the rehearsal activates it, the simulation raises. -/
theorem c77_locked (c : Active.Cfg) (hk : c.kind 0 = some .linear) (a : Active.St) (t0 v r : Rat) (hv : a.value 0 = some v) (ha : a.active 0 = none) (hl : a.tbs 0 ≠ []) :
    let code : Code Rat AOp Active.Out := script [.act (.activate 0 1 (some r))]
    (rehearse (actor c) code t0 (understudy c t0 a) 1).hist = [.val .ok] ∧ (simulate (actor c) code (init t0 a []) (quiet 1)).hist = [.val .raised] := by
  intro code
  constructor
  · have hval : (understudy c t0 a).value 0 = some v := by simp [understudy, Active.read, Active.readLinear, hk, hv, ha]
    have h1 : (Active.activate c { understudy c t0 a with now := t0 } 0 1 (some r)).2 = .ok := by
      unfold Active.activate
      rw [hk]
      dsimp only
      rw [if_neg (by simp [Active.lockRefused, understudy])]
      obtain ⟨a', d', p1, -⟩ := read_runs (c := c) (n := 0) (a := Active.setActive (Active.lock { understudy c t0 a with now := t0 } 0 1) 0 t0 (some 1) (some r) none none) (x := v) (r := r)
        (d := ⟨t0, some 1, some r, none, none⟩) hk hval (by simp only [Active.setActive, upd_eq]; rfl) rfl (le_refl _)
      rw [p1]
      dsimp only
      rw [if_neg (by simp)]
    simp [rehearse, rstep, code, script, rinit, actor, acall, h1]
  · have h1 : Active.activate c { a with now := t0 } 0 1 (some r) = ({ a with now := t0 }, .raised) := by
      unfold Active.activate
      rw [hk]
      dsimp only
      rw [if_pos (by simp [Active.lockRefused, hl])]
    simp [simulate, quiet, List.replicate, step, exec, code, script, init, actor, acall, h1]

end Verif.Predict
