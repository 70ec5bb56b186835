import Verif.Predict.Moving
import Verif.Predict.Examples

/-! # A flight, planned and flown -/

namespace Verif.Predict

open Verif.Path (Loc cartesian timeAndDist euclid slack under)

/-- Looks where the actor is, sends it along waypoints, waits as long as `waypoint_time_and_dist` says, stops it and looks where it is. -/
noncomputable def flight (k v : ℝ) (ws : List Loc) : Code ℝ (MOp Loc) (Path.Out Loc)
  | [] => .act .read
  | [.val (.loc _)] => .act (.activate v ws)
  | [.val (.loc p), _] => .yield (.new (timeAndDist (Loc.sub k) p ws v).1)
  | [_, _, _] => .act .deactivate
  | [_, _, _, _] => .act .read
  | _ => .ret

/-- An actor at rest. -/
def atRest (u : ℝ) (p : Loc) : Mover Loc := ⟨⟨u, p, none, false⟩, false⟩

theorem travel_pos (k : ℝ) (p : Loc) (v : ℝ) (hv : 0 < v) (pre : List Loc) (w : Loc) (hleg : v * slack < euclid ((pre.getLastD p).place k) (w.place k)) :
    0 < (timeAndDist (Loc.sub k) p (pre ++ [w]) v).1 := by
  have hd : (timeAndDist (Loc.sub k) p (pre ++ [w]) v).2 = (cartesian k).len p (pre ++ [w]) := by
    simp only [timeAndDist, Path.distLoop_eq, zero_add]
    rfl
  have h1 : (timeAndDist (Loc.sub k) p (pre ++ [w]) v).1 = (cartesian k).len p (pre ++ [w]) / v := by rw [← hd]; rfl
  rw [h1, Path.len_snoc]
  refine div_pos (add_pos_of_nonneg_of_pos ?_ ?_) hv
  · exact Path.pathLen_nonneg _ (fun a b => by rw [(Path.cartesian_straight k).dist]; exact Path.euclid_nonneg _ _) _ _
  · rw [(Path.cartesian_straight k).dist]
    have := mul_pos hv Path.slack_pos
    linarith

/-- The rehearsal, command by command. -/
theorem flight_steps (k : ℝ) (t0 u : ℝ) (p : Loc) (v : ℝ) (ws : List Loc) (T : ℝ) (hT : 0 ≤ T) (hTd : (timeAndDist (Loc.sub k) p ws v).1 = T) (σ₁ : Path.St Loc) (X : Loc)
    (hact : Path.step (cartesian k) ⟨t0, p, none, false⟩ (.activate v ws) = (σ₁, .done))
    (hde : Path.step (cartesian k) ⟨t0 + T, σ₁.value, σ₁.act, σ₁.locked⟩ .deactivate = (⟨t0 + T, X, none, false⟩, .done)) :
    rehearse (mover (cartesian k)) (flight k v ws) t0 (atRest u p) 6 =
        ⟨t0 + T, none, ⟨⟨t0 + T, X, none, false⟩, false⟩, finish [] (.new T), [.val (.loc p), .val .done, .resumed, .val .done, .val (.loc X)], .finished, [0]⟩ ∧
      Plain (mover (cartesian k)) (flight k v ws) t0 (atRest u p) := by
  have h1 : rehearse (mover (cartesian k)) (flight k v ws) t0 (atRest u p) 1 = ⟨t0, none, ⟨⟨t0, p, none, false⟩, false⟩, [], [.val (.loc p)], .running, []⟩ := rfl
  have h2 : rehearse (mover (cartesian k)) (flight k v ws) t0 (atRest u p) 2 = ⟨t0, none, ⟨σ₁, false⟩, [], [.val (.loc p), .val .done], .running, []⟩ := by
    rw [rehearse, h1]
    simp only [if_true, flight, rstep, mover, Bool.false_eq_true, if_false, MOp.op, MOp.isDeactivate, Bool.false_and]
    rw [hact]
    rfl
  have h3 : rehearse (mover (cartesian k)) (flight k v ws) t0 (atRest u p) 3 = ⟨t0 + T, none, ⟨σ₁, false⟩, finish [] (.new T), [.val (.loc p), .val .done, .resumed], .running, [0]⟩ := by
    rw [rehearse, h2]
    simp only [if_true, flight, rstep, valid, hasTime, Bool.and_true, hTd, hT, decide_true, if_true, total, Option.isSome_none, Bool.false_eq_true, if_false, Option.map_none, lastOf, List.length_nil]
    rfl
  have h4 : rehearse (mover (cartesian k)) (flight k v ws) t0 (atRest u p) 4 =
      ⟨t0 + T, none, ⟨⟨t0 + T, X, none, false⟩, false⟩, finish [] (.new T), [.val (.loc p), .val .done, .resumed, .val .done], .running, [0]⟩ := by
    rw [rehearse, h3]
    simp only [if_true, flight, rstep, mover, Bool.false_eq_true, if_false, MOp.op, MOp.isDeactivate, Bool.true_and]
    rw [hde]
    rfl
  have h5 : rehearse (mover (cartesian k)) (flight k v ws) t0 (atRest u p) 5 =
      ⟨t0 + T, none, ⟨⟨t0 + T, X, none, false⟩, false⟩, finish [] (.new T), [.val (.loc p), .val .done, .resumed, .val .done, .val (.loc X)], .running, [0]⟩ := by
    rw [rehearse, h4]
    rfl
  have h6 : rehearse (mover (cartesian k)) (flight k v ws) t0 (atRest u p) 6 =
      ⟨t0 + T, none, ⟨⟨t0 + T, X, none, false⟩, false⟩, finish [] (.new T), [.val (.loc p), .val .done, .resumed, .val .done, .val (.loc X)], .finished, [0]⟩ := by
    rw [rehearse, h5]
    rfl
  refine ⟨h6, plain_of _ _ _ _ 6 (by rw [h6]; exact fun h => (nomatch h)) fun n hn _ => ?_⟩
  have hc : n = 0 ∨ n = 1 ∨ n = 2 ∨ n = 3 ∨ n = 4 ∨ n = 5 := by omega
  rcases hc with rfl | rfl | rfl | rfl | rfl | rfl
  · exact (rfl : (0 : ℝ) = 0)
  · rw [h1]; exact (rfl : (0 : ℝ) = 0)
  · rw [h2]; exact ⟨rfl, rfl⟩
  · rw [h3]; exact (rfl : (0 : ℝ) = 0)
  · rw [h4]; exact (rfl : (0 : ℝ) = 0)
  · rw [h5]; trivial

/-- Stopping when the travel time has passed. -/
theorem flight_stops (k : ℝ) (t0 : ℝ) (p : Loc) (v : ℝ) (hv : 0 < v) (pre : List Loc) (w : Loc) (hleg : v * slack < euclid ((pre.getLastD p).place k) (w.place k)) (T : ℝ)
    (hT : (timeAndDist (Loc.sub k) p (pre ++ [w]) v).1 = T) (σ₁ : Path.St Loc) (hact : Path.step (cartesian k) ⟨t0, p, none, false⟩ (.activate v (pre ++ [w])) = (σ₁, .done)) :
    ∃ X : Loc, X.place k = w.place k ∧ Path.step (cartesian k) ⟨t0 + T, σ₁.value, σ₁.act, σ₁.locked⟩ .deactivate = (⟨t0 + T, X, none, false⟩, .done) := by
  have hpos := travel_pos k p v hv pre w hleg
  rw [hT] at hpos
  obtain ⟨a1, -, -, a4⟩ := Path.activate_moving (cartesian k) ⟨t0, p, none, false⟩ rfl v hv (pre ++ [w])
  rw [hact] at a1 a4
  dsimp only at a1 a4
  have hund : under (cartesian k) ⟨t0, p, none, false⟩ v (pre ++ [w]) [.advance (t0 + T)] = ⟨t0 + T, σ₁.value, σ₁.act, σ₁.locked⟩ := by
    simp only [under, Path.exec]
    rw [hact]
    dsimp only
    rw [Path.step_advance _ _ _ (by rw [a4]; linarith)]
  obtain ⟨⟨X, hX, hXw⟩, -⟩ := Path.c18_travel_time_partial k ⟨t0, p, none, false⟩ rfl v hv pre w hleg [.advance (t0 + T)] (by simp [Path.Op.During]) (by rw [hund, hT])
  rw [hund] at hX
  refine ⟨X, hXw, ?_⟩
  have hu : ∀ a, σ₁.act = some a → a.path = none → a.speed = 0 ∧ a.waypoints ≠ [] := fun a ha hp => by rw [a1.act] at ha; cases ha; cases hp
  simp only [Path.step] at hX ⊢
  rw [if_pos a1.locked]
  rcases read_cases (cartesian k) σ₁.act hu (t0 + T) with ⟨-, h2⟩ | ⟨h1, h2⟩ | ⟨A, q, h1, h1', h1'', h2⟩
  · rw [h2 ⟨t0 + T, σ₁.value, σ₁.act, σ₁.locked⟩ rfl rfl] at hX; cases hX
  · exact absurd (h1 _ a1.act) (by dsimp only; linarith)
  · rw [h2 ⟨t0 + T, σ₁.value, σ₁.act, σ₁.locked⟩ rfl rfl] at hX
    rw [h2 ⟨t0 + T, σ₁.value, σ₁.act, false⟩ rfl rfl]
    cases hX
    rfl

/-- The rehearsal of the flight: it is over when the travel time has passed, at the last waypoint. -/
theorem flight_rehearsed (k : ℝ) (t0 u : ℝ) (p : Loc) (v : ℝ) (hv : 0 < v) (pre : List Loc) (w : Loc) (hleg : v * slack < euclid ((pre.getLastD p).place k) (w.place k)) (T : ℝ)
    (hT : (timeAndDist (Loc.sub k) p (pre ++ [w]) v).1 = T) :
    ∃ X : Loc, X.place k = w.place k ∧
      rehearse (mover (cartesian k)) (flight k v (pre ++ [w])) t0 (atRest u p) 6 =
        ⟨t0 + T, none, ⟨⟨t0 + T, X, none, false⟩, false⟩, finish [] (.new T), [.val (.loc p), .val .done, .resumed, .val .done, .val (.loc X)], .finished, [0]⟩ ∧
      Plain (mover (cartesian k)) (flight k v (pre ++ [w])) t0 (atRest u p) := by
  have hpos := travel_pos k p v hv pre w hleg
  rw [hT] at hpos
  obtain ⟨-, a2, -, -⟩ := Path.activate_moving (cartesian k) ⟨t0, p, none, false⟩ rfl v hv (pre ++ [w])
  have hact : Path.step (cartesian k) ⟨t0, p, none, false⟩ (.activate v (pre ++ [w])) = ((Path.step (cartesian k) ⟨t0, p, none, false⟩ (.activate v (pre ++ [w]))).1, .done) := Prod.ext rfl a2
  obtain ⟨X, h1, h2⟩ := flight_stops k t0 p v hv pre w hleg T hT _ hact
  exact ⟨X, h1, flight_steps k t0 u p v (pre ++ [w]) T hpos.le hT _ X hact h2⟩

/-- The flight in the simulation, among others who read the location at any time and in any order: once the travel time has passed, it is over, and the actor has come to the last waypoint. -/
theorem c77_flight (k : ℝ) (t0 u : ℝ) (p : Loc) (v : ℝ) (hv : 0 < v) (pre : List Loc) (w : Loc) (hleg : v * slack < euclid ((pre.getLastD p).place k) (w.place k))
    (q : List (Item ℝ)) (hq : Before t0 q) (fs : List (Other ℝ (MOp Loc))) (hfs : ∀ f ∈ fs, Harmless (mover (cartesian k)) f)
    (hlate : t0 + (timeAndDist (Loc.sub k) p (pre ++ [w]) v).1 < (simulate (mover (cartesian k)) (flight k v (pre ++ [w])) (init t0 (atRest u p) q) fs).now) :
    let s := simulate (mover (cartesian k)) (flight k v (pre ++ [w])) (init t0 (atRest u p) q) fs
    ∃ X : Loc, X.place k = w.place k ∧ s.status = .finished ∧ s.hist = [.val (.loc p), .val .done, .resumed, .val .done, .val (.loc X)] ∧ s.actor.st.value = X ∧ s.actor.st.act = none ∧
      s.actor.st.locked = false := by
  obtain ⟨X, hX, hr, hp⟩ := flight_rehearsed k t0 u p v hv pre w hleg _ rfl
  have hM := c77_moving (cartesian k)
  have h0 : Abreast t0 (atRest u p) (atRest u p) := c77_moving_understudy t0 p u u
  have hfin := c77_by_then_partial hM (flight k v (pre ++ [w])) t0 _ _ h0 hp q hq fs hfs 6 (by rw [hr]) (by rw [hr]; exact hlate)
  obtain ⟨e1, e2, e3⟩ := c77_outcome_partial hM (flight k v (pre ++ [w])) t0 _ _ h0 hp q hq fs hfs 6 (by rw [hr]; exact fun h => (nomatch h)) (by rw [hfin]; exact fun h => (nomatch h))
  refine ⟨X, hX, hfin, e2.trans (by rw [hr]), ?_⟩
  rw [hr] at e3
  rcases e3 with ⟨-, h⟩ | ⟨-, -, h⟩
  · cases h
  · refine ⟨?_, h.act, h.locked⟩
    rcases h.value with h' | ⟨A, g1, -⟩
    · exact h'
    · rw [h.act] at g1; cases g1

/-! ## A flight from the origin by (3, 4, 0) up to (3, 4, 12) at speed 1; another process looks where the actor is at time 100 -/

def looks : List (Other ℝ (MOp Loc)) := List.replicate 8 ⟨[.read, .remaining], [(1, false)]⟩

theorem looks_harmless (k : ℝ) : ∀ f ∈ looks, Harmless (mover (cartesian k)) f := by
  intro f hf
  rw [List.eq_of_mem_replicate hf]
  refine ⟨fun o ho => ?_, fun p hp => ?_⟩
  · simp only [List.mem_cons, List.not_mem_nil, or_false] at ho
    exact ho
  · simp only [List.mem_singleton] at hp
    subst hp
    norm_num

theorem demo_time : (timeAndDist (Loc.sub 2) Path.rest.value ([Path.w1] ++ [Path.w2]) 1).1 = 17 := by
  have h : (timeAndDist (Loc.sub 2) Path.rest.value ([Path.w1] ++ [Path.w2]) 1).2 = 17 := by
    simp only [timeAndDist, Path.distLoop_eq, zero_add]
    exact ((Path.cartesian_straight 2).len _ _).trans Path.len2
  have h' : (timeAndDist (Loc.sub 2) Path.rest.value ([Path.w1] ++ [Path.w2]) 1).1 = (timeAndDist (Loc.sub 2) Path.rest.value ([Path.w1] ++ [Path.w2]) 1).2 / 1 := rfl
  rw [h', h, div_one]

theorem demo_leg : 1 * slack < euclid (([Path.w1].getLastD Path.rest.value).place 2) (Path.w2.place 2) := by
  have : euclid (Path.w1.place 2) (Path.w2.place 2) = 12 := by
    simp only [euclid, Loc.place, Path.w1, Path.w2]
    norm_num
    rw [show (144 : ℝ) = 12 ^ 2 by norm_num, Real.sqrt_sq (by norm_num)]
  have h2 := Path.slack_lt
  show 1 * slack < euclid (Path.w1.place 2) (Path.w2.place 2)
  rw [this]
  linarith

theorem demo_flown : (simulate (mover (cartesian 2)) (flight 2 1 ([Path.w1] ++ [Path.w2])) (init 0 (atRest 0 Path.rest.value) [⟨100, false, .other⟩]) looks).now = 100 := by
  obtain ⟨-, a2, -, -⟩ := Path.activate_moving (cartesian 2) ⟨0, Path.rest.value, none, false⟩ rfl 1 one_pos ([Path.w1] ++ [Path.w2])
  obtain ⟨σ₁, hσ⟩ : ∃ σ₁, Path.step (cartesian 2) ⟨0, Path.rest.value, none, false⟩ (.activate 1 ([Path.w1] ++ [Path.w2])) = (σ₁, .done) := ⟨_, Prod.ext rfl a2⟩
  obtain ⟨X, -, hX⟩ := flight_stops 2 0 Path.rest.value 1 one_pos [Path.w1] Path.w2 demo_leg 17 demo_time σ₁ hσ
  rw [zero_add] at hX
  have h1 : step (mover (cartesian 2)) (flight 2 1 ([Path.w1] ++ [Path.w2])) ⟨[.read, .remaining], [(1, false)]⟩ (init 0 (atRest 0 Path.rest.value) [⟨100, false, .other⟩]) =
      ⟨0, [⟨100, false, .other⟩], ⟨⟨0, Path.rest.value, none, false⟩, false⟩, [], 0, none, false, [.val (.loc Path.rest.value)], .running⟩ := rfl
  have h2 : step (mover (cartesian 2)) (flight 2 1 ([Path.w1] ++ [Path.w2])) ⟨[.read, .remaining], [(1, false)]⟩
      ⟨0, [⟨100, false, .other⟩], ⟨⟨0, Path.rest.value, none, false⟩, false⟩, [], 0, none, false, [.val (.loc Path.rest.value)], .running⟩ =
      ⟨0, [⟨100, false, .other⟩], ⟨σ₁, false⟩, [], 0, none, false, [.val (.loc Path.rest.value), .val .done], .running⟩ := by
    simp only [step, Option.isNone_none, and_self, if_true, flight, exec, mover, Bool.false_eq_true, if_false, MOp.op, MOp.isDeactivate, Bool.false_and]
    rw [hσ]
    rfl
  have h3 : step (mover (cartesian 2)) (flight 2 1 ([Path.w1] ++ [Path.w2])) ⟨[.read, .remaining], [(1, false)]⟩
      ⟨0, [⟨100, false, .other⟩], ⟨σ₁, false⟩, [], 0, none, false, [.val (.loc Path.rest.value), .val .done], .running⟩ =
      ⟨0, [⟨17, false, .timeout 0⟩, ⟨100, false, .other⟩], ⟨σ₁, false⟩, [⟨17, 17, false⟩], 0, some (.leaf 0), false, [.val (.loc Path.rest.value), .val .done], .running⟩ := by
    simp only [step, Option.isNone_none, and_self, if_true, flight, exec, demo_time]
    simp [valid, build, scheduleL, schedule, Item.before, CTree.processed, doneOf]
    norm_num
  have h4 : step (mover (cartesian 2)) (flight 2 1 ([Path.w1] ++ [Path.w2])) ⟨[.read, .remaining], [(1, false)]⟩
      ⟨0, [⟨17, false, .timeout 0⟩, ⟨100, false, .other⟩], ⟨σ₁, false⟩, [⟨17, 17, false⟩], 0, some (.leaf 0), false, [.val (.loc Path.rest.value), .val .done], .running⟩ =
      ⟨17, [⟨100, false, .other⟩], ⟨σ₁, false⟩, [⟨17, 17, true⟩], 0, none, false, [.val (.loc Path.rest.value), .val .done, .resumed], .running⟩ := by
    simp [step, tick, process, hit, CTree.is, scheduleL]
  have h5 : step (mover (cartesian 2)) (flight 2 1 ([Path.w1] ++ [Path.w2])) ⟨[.read, .remaining], [(1, false)]⟩
      ⟨17, [⟨100, false, .other⟩], ⟨σ₁, false⟩, [⟨17, 17, true⟩], 0, none, false, [.val (.loc Path.rest.value), .val .done, .resumed], .running⟩ =
      ⟨17, [⟨100, false, .other⟩], ⟨⟨17, X, none, false⟩, false⟩, [⟨17, 17, true⟩], 0, none, false, [.val (.loc Path.rest.value), .val .done, .resumed, .val .done], .running⟩ := by
    simp only [step, Option.isNone_none, and_self, if_true, flight, exec, mover, Bool.false_eq_true, if_false, MOp.op, MOp.isDeactivate, Bool.true_and]
    rw [hX]
    rfl
  have h6 : step (mover (cartesian 2)) (flight 2 1 ([Path.w1] ++ [Path.w2])) ⟨[.read, .remaining], [(1, false)]⟩
      ⟨17, [⟨100, false, .other⟩], ⟨⟨17, X, none, false⟩, false⟩, [⟨17, 17, true⟩], 0, none, false, [.val (.loc Path.rest.value), .val .done, .resumed, .val .done], .running⟩ =
      ⟨17, [⟨100, false, .other⟩], ⟨⟨17, X, none, false⟩, false⟩, [⟨17, 17, true⟩], 0, none, false, [.val (.loc Path.rest.value), .val .done, .resumed, .val .done, .val (.loc X)], .running⟩ := rfl
  have h7 : step (mover (cartesian 2)) (flight 2 1 ([Path.w1] ++ [Path.w2])) ⟨[.read, .remaining], [(1, false)]⟩
      ⟨17, [⟨100, false, .other⟩], ⟨⟨17, X, none, false⟩, false⟩, [⟨17, 17, true⟩], 0, none, false, [.val (.loc Path.rest.value), .val .done, .resumed, .val .done, .val (.loc X)], .running⟩ =
      ⟨17, [⟨100, false, .other⟩], ⟨⟨17, X, none, false⟩, false⟩, [⟨17, 17, true⟩], 0, none, false, [.val (.loc Path.rest.value), .val .done, .resumed, .val .done, .val (.loc X)], .finished⟩ := rfl
  simp only [looks, List.replicate, simulate, h1, h2, h3, h4, h5, h6, h7]
  simp [step, tick]

example : let s := simulate (mover (cartesian 2)) (flight 2 1 ([Path.w1] ++ [Path.w2])) (init 0 (atRest 0 Path.rest.value) [⟨100, false, .other⟩]) looks
    ∃ X : Loc, X.place 2 = Path.w2.place 2 ∧ s.status = .finished ∧ s.hist = [.val (.loc Path.rest.value), .val .done, .resumed, .val .done, .val (.loc X)] ∧ s.actor.st.value = X ∧
      s.actor.st.act = none ∧ s.actor.st.locked = false :=
  c77_flight 2 0 0 Path.rest.value 1 one_pos [Path.w1] Path.w2 demo_leg [⟨100, false, .other⟩] ⟨by simp, by simp, List.pairwise_singleton _ _⟩ looks (looks_harmless 2) (by
    rw [demo_flown, demo_time]; norm_num)

/-! ## What is left out -/

/-- A movement that has taken too long: stopping it raises, and leaves the state active but free. If the task goes on, the next movement begins where the location was stored last, which depends on the
reads of others. -/
theorem c77_late {P : Type} (Kd : Path.Kind P) (t0 v : ℝ) (p : P) (ws : List P) (a : Path.St P) (h : Path.Moving Kd t0 v p ws a) (hlate : ∀ b : Path.St P, b.act = a.act → b.now = a.now → Path.read Kd b = (b, .error))
    (v' : ℝ) (hv : 0 < v') (ws' : List P) :
    (Path.step Kd a .deactivate).2 = .error ∧ (Path.step Kd (Path.exec Kd [.deactivate, .activate v' ws'] a) .read).2 = .loc a.value := by
  have h1 : Path.step Kd a .deactivate = ({ a with locked := false }, .error) := by
    simp only [Path.step]
    rw [if_pos h.locked, hlate { a with locked := false } rfl rfl]
  refine ⟨by rw [h1], ?_⟩
  simp only [Path.exec]
  rw [h1]
  obtain ⟨g1, -, g3, g4⟩ := Path.activate_moving Kd { a with locked := false } rfl v' hv ws'
  dsimp only at g1 g3 g4 ⊢
  have hr := Path.read_moving g1
  rw [show Path.step Kd (Path.step Kd { a with locked := false } (.activate v' ws')).1 .read = Path.read Kd (Path.step Kd { a with locked := false } (.activate v' ws')).1 from rfl, hr]
  simp only [Path.onPath, g4, sub_self, lt_irrefl, if_false, if_true, g3]

/-- Sent along one leg of length 5 and stopped at time 10: with a read at time 1 and without. -/
example : ∃ a b : Path.St Loc, a = under (cartesian 2) Path.rest 1 [Path.w1] [.advance 1, .read, .advance 10] ∧ b = under (cartesian 2) Path.rest 1 [Path.w1] [.advance 10] ∧
    (Path.step (cartesian 2) (Path.exec (cartesian 2) [.deactivate, .activate 1 [Path.w2]] a) .read).2 ≠ (Path.step (cartesian 2) (Path.exec (cartesian 2) [.deactivate, .activate 1 [Path.w2]] b) .read).2 := by
  refine ⟨_, _, rfl, rfl, ?_⟩
  have hA := Path.under_moving (cartesian 2) Path.rest rfl 1 one_pos [Path.w1] [.advance 1, .read, .advance 10] (by simp [Path.Op.During])
  have hB := Path.under_moving (cartesian 2) Path.rest rfl 1 one_pos [Path.w1] [.advance 10] (by simp [Path.Op.During])
  obtain ⟨g1, -, g3, g4⟩ := Path.activate_moving (cartesian 2) Path.rest rfl 1 one_pos [Path.w1]
  have hd : (cartesian 2).dist Path.w1 Path.rest.value = 5 := by
    have h := Path.len1
    simp only [List.map_cons, List.map_nil, Path.pathLen, add_zero] at h
    rw [(Path.cartesian_straight 2).dist]; exact h
  have hlate : ∀ b : Path.St Loc, b.act = some ⟨0, 1, [Path.w1], some (Path.legs (cartesian 2) 1 Path.rest.value [Path.w1])⟩ → b.now = 10 → Path.read (cartesian 2) b = (b, .error) := fun b h1 h2 => by
    simp only [Path.read, h1, Path.onPath, h2, Path.legs, hd, List.map_cons, List.map_nil, Path.getIndex]
    rw [if_neg (by norm_num), if_neg (by norm_num), if_neg (by show ¬ ((10 : ℝ) - 0 ≤ 0 + 5 / 1 + 1 / 10 ^ 12); norm_num)]
  have hr : ∀ σ : Path.St Loc, σ.act = some ⟨0, 1, [Path.w1], some (Path.legs (cartesian 2) 1 Path.rest.value [Path.w1])⟩ → σ.now = 1 → (Path.read (cartesian 2) σ).1 =
      { σ with value := Loc.move 2 Path.rest.value Path.w1 (1 / 5) } := fun σ h1 h2 => by
    have e1 : Path.getIndex (cartesian 2).tol (1 - 0) [5 / 1] 0 0 = some (0, 0 + 5 / 1 - 5 / 1) := by
      simp only [Path.getIndex]
      rw [if_pos (by show (1 : ℝ) - 0 ≤ 0 + 5 / 1 + 1 / 10 ^ 12; norm_num)]
    simp only [Path.read, h1, Path.onPath, h2, Path.legs, hd, List.map_cons, List.map_nil, e1, List.getElem?_cons_zero]
    rw [if_neg (by norm_num), if_neg (by norm_num), if_neg (by norm_num)]
    have : ((1 : ℝ) - 0 - (0 + 5 / 1 - 5 / 1)) / (5 / 1) = 1 / 5 := by norm_num
    rw [this]
    cases σ
    simp only at h1 h2
    subst h1 h2
    rfl
  have nB : (under (cartesian 2) Path.rest 1 [Path.w1] [.advance 10]).now = 10 ∧ (under (cartesian 2) Path.rest 1 [Path.w1] [.advance 10]).value = Path.rest.value := by
    simp only [under, Path.exec]
    rw [Path.step_advance _ _ _ (by rw [g4]; simp [Path.rest])]
    exact ⟨rfl, g3⟩
  have nA : (under (cartesian 2) Path.rest 1 [Path.w1] [.advance 1, .read, .advance 10]).now = 10 ∧
      (under (cartesian 2) Path.rest 1 [Path.w1] [.advance 1, .read, .advance 10]).value = Loc.move 2 Path.rest.value Path.w1 (1 / 5) := by
    simp only [under, Path.exec]
    rw [Path.step_advance _ _ 1 (by rw [g4]; simp [Path.rest])]
    rw [show Path.step (cartesian 2) { (Path.step (cartesian 2) Path.rest (.activate 1 [Path.w1])).1 with now := 1 } .read = Path.read (cartesian 2) { (Path.step (cartesian 2) Path.rest (.activate 1 [Path.w1])).1 with now := 1 } from rfl]
    dsimp only
    rw [hr { (Path.step (cartesian 2) Path.rest (.activate 1 [Path.w1])).1 with now := 1 } g1.act rfl, Path.step_advance _ _ 10 (by norm_num)]
    exact ⟨rfl, rfl⟩
  rw [(c77_late _ _ _ _ _ _ hA (fun b h1 h2 => hlate b (h1.trans hA.act) (h2.trans nA.1)) 1 one_pos [Path.w2]).2, (c77_late _ _ _ _ _ _ hB (fun b h1 h2 => hlate b (h1.trans hB.act) (h2.trans nB.1)) 1 one_pos [Path.w2]).2,
    nA.2, nB.2]
  intro hc
  have hx := congrArg Loc.x (Path.Out.loc.inj hc)
  simp only [Loc.move, Loc.arr, Path.rest, Path.w1] at hx
  norm_num at hx

end Verif.Predict
