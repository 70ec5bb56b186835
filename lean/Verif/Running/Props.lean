import Verif.Running.Run

/-!
# C67: running tasks as reported, interrupts of networks, markers

The specification (`Verif.Running.Spec`) reads off the trace of operations and outcomes who runs, which task was begun last on a network,
which processes returned, which interrupts were issued and arrived, and which markers were set.
-/

namespace Verif.Running

open Spec
open Verif.Network (Net Kind)

/-- For the examples: task `a`, then decision `d` made in the loop, and round; and a task `b` that follows itself. -/
def exNet : Net := ⟨[("a", .normal), ("d", .skip), ("b", .normal)],
  [("a", ⟨some "d", ["d"]⟩), ("d", ⟨some "a", ["a"]⟩), ("b", ⟨some "b", ["b"]⟩)]⟩

/-- For the examples: the network is started and the first task waits. -/
def exStart : List Op := [.call (.addNet "n" exNet), .call (.startLoop "n" (some "a")), .urgent, .urgent, .sleep]

theorem exReached (ops : List Op) (h : (run (init 0) [] ops).1.crashed = false) :
    Reached (run (init 0) [] ops).1 (run (init 0) [] ops).2 := ⟨0, ops, rfl, h⟩

/-- What `get_running_task` is to answer: the task begun last on the network, whether or not it is over, with its process; but under the
name of the decision that is being made. -/
def Spec.reportOf (tr : Trace) (n : String) : Option (Option (String × Nat)) :=
  (bound tr n).map fun o => (lastBegun tr o).map fun x => ((deciding tr o).getD x.1, x.2)

def Spec.reportOut : Option (Option (String × Nat)) → Out
  | none => .raised
  | some r => .report r

theorem getRunning_eq {s : St} {tr : Trace} (h : Inv s tr) (n : String) : getRunning s n = reportOut (reportOf tr n) := by
  unfold getRunning reportOf
  rw [h.bound n]
  by_cases hn : s.q.nets.has n = true
  · simp only [hn, Bool.not_true, Bool.false_eq_true, if_false, if_true, Option.map_some, reportOut]
    rw [h.curProc _ (h.objLt n hn)]
    cases hb : lastBegun tr (s.obj n) with
    | none => rfl
    | some x =>
      have := h.curName (s.obj n) x.1 x.2 hb
      simp only [Option.map_some, this]
  · simp [hn, reportOut]

/-- `get_running_task` answers exactly that, and changes nothing. -/
theorem c67_report {s : St} {tr : Trace} (h : Reached s tr) (n : String) :
    step s (.call (.getRunning n)) = (s, reportOut (reportOf tr n)) := by
  rw [h.step]
  exact congrArg (Prod.mk s) (getRunning_eq h.inv n)

/-- For instance: nothing before the loop starts, then the task. -/
example : (step (run (init 0) [] (exStart.take 2)).1 (.call (.getRunning "n"))).2 = .report none ∧
    (step (run (init 0) [] exStart).1 (.call (.getRunning "n"))).2 = .report (some ("a", 0)) ∧
    (step (run (init 0) [] exStart).1 (.call (.getRunning "m"))).2 = .raised ∧
    Reached (run (init 0) [] exStart).1 (run (init 0) [] exStart).2 :=
  ⟨by decide +kernel, by decide +kernel, by decide +kernel, exReached _ (by decide +kernel)⟩

/-- `get_running_tasks` gives, for the networks in the order in which they were added, what `get_running_task` gives for each. -/
theorem c67_all {s : St} {tr : Trace} (h : Reached s tr) :
    step s (.call .getAll) = (s, .reports ((names tr).filterMap fun n => ((reportOf tr n).getD none).map fun x => (n, x.1, x.2))) := by
  rw [h.step]
  refine congrArg (Prod.mk s) (congrArg Out.reports ?_)
  unfold getAll
  rw [h.names]
  refine List.filterMap_congr fun n hn => ?_
  have hi := h.inv
  have hh : s.q.nets.has n = true := by rw [Dict.has_iff, h.names]; exact hn
  unfold reportOf
  rw [hi.bound n, if_pos hh, hi.curProc _ (hi.objLt n hh)]
  cases hb : lastBegun tr (s.obj n) with
  | none => simp [hb]
  | some x =>
    have := hi.curName (s.obj n) x.1 x.2 hb
    simp only [Option.map_some, this, hb, Option.getD_some]

example : (step (run (init 0) [] (exStart ++ [.call (.addNet "m" exNet), .call (.startLoop "m" (some "b")), .urgent])).1 (.call .getAll)).2 =
    .reports [("n", "a", 0), ("m", "b", 1)] := by decide +kernel

/-- When time goes on, what is reported is true: the process reported is that of the task begun last, under that task's name, and is not
over. -/
theorem c67_alive {s : St} {tr : Trace} (h : Reached s tr) {dt : Rat} (ha : (step s (.advance dt)).2 = .done) {n t : String} {p : Nat}
    (hr : (step s (.call (.getRunning n))).2 = .report (some (t, p))) :
    ∃ o, bound tr n = some o ∧ lastBegun tr o = some (t, p) ∧ ¬ Finished tr p := by
  have hi := h.inv
  have hadv : s.active = .idle ∧ ∀ l, l < s.nLoop → due s l = false := by
    unfold step at ha
    split at ha
    · cases ha
    · simp only at ha
      split at ha
      · rename_i hh
        simp only [quiet, Bool.and_eq_true, decide_eq_true_eq, List.all_eq_true, List.mem_range] at hh
        exact ⟨hh.1.1.1, fun l hl => by simpa using hh.2 l hl⟩
      · cases ha
  have hd : ∀ o, deciding tr o = none := deciding_none (fun o t x => by rw [hi.who] at x; simp [whoOf, hadv.1] at x)
  rw [c67_report h] at hr
  simp only [reportOf] at hr
  cases hb : bound tr n with
  | none => simp [hb, reportOut] at hr
  | some o =>
    simp only [hb, Option.map_some, reportOut, Out.report.injEq, hd, Option.getD_none] at hr
    cases hl : lastBegun tr o with
    | none => simp [hl] at hr
    | some x =>
      simp only [hl, Option.map_some, Option.some.injEq, Prod.mk.injEq] at hr
      obtain ⟨e1, e2⟩ := hr
      have hx : lastBegun tr o = some (t, p) := by rw [hl, ← e1, ← e2]
      refine ⟨o, rfl, hx, ?_⟩
      obtain ⟨l, h1, h2, h3⟩ := hi.holder o t p hx (hd o)
      have := hadv.2 l h1
      simp only [due, h3, decide_eq_false_iff_not] at this
      intro hf
      exact this ((hi.fin p).1 hf).2

example : (step (run (init 0) [] exStart).1 (.advance 3)).2 = .done ∧
    (step (run (init 0) [] exStart).1 (.call (.getRunning "n"))).2 = .report (some ("a", 0)) := by decide +kernel

theorem caller_eq {s : St} {tr : Trace} (h : Inv s tr) : caller tr = s.active.proc := by
  unfold caller
  rw [h.who]
  unfold whoOf Active.proc
  cases ha : s.active with
  | decision l =>
    obtain ⟨-, t, ht⟩ := h.actDec l ha
    simp [ht]
  | _ => rfl

/-- `interrupt_network` interrupts the task begun last, unless it is over or is the caller itself: then, and if there is none or no such
network, it raises and nothing happens. -/
theorem c67_interrupt {s : St} {tr : Trace} (h : Reached s tr) (n : String) (c : Nat) :
    (step s (.call (.interruptNet n c))).2 =
      match (bound tr n).bind (lastBegun tr) with
      | none => .raised
      | some x => if Finished tr x.2 ∨ caller tr = some x.2 then .raised else .issued (issued tr).length x.2 c := by
  have hi := h.inv
  have hlen : (issued tr).length = s.nInt := by
    have := congrArg List.length hi.nInt
    simpa using this
  rw [h.step]
  simp only [doCall, interruptNet, getRunning_eq hi n, reportOf]
  cases hb : bound tr n with
  | none => rfl
  | some o =>
    simp only [Option.map_some, reportOut, Option.bind_some]
    cases hl : lastBegun tr o with
    | none => rfl
    | some x =>
      have hx := (hi.begunLt o x.1 x.2 hl).2
      simp only [Option.map_some, hi.fin x.2, caller_eq hi, hx, true_and, hlen]
      split <;> rfl

/-- Issued; refused to the task itself; refused where nothing began. -/
example : (step (run (init 0) [] exStart).1 (.call (.interruptNet "n" 7))).2 = .issued 0 0 7 ∧
    (step (run (init 0) [] (exStart.take 4)).1 (.call (.interruptNet "n" 7))).2 = .raised ∧
    (step (run (init 0) [] (exStart.take 2)).1 (.call (.interruptNet "n" 7))).2 = .raised := by decide +kernel

/-- It changes none of the reports, and if it raises nothing at all. -/
theorem c67_interrupt_rest {s : St} {tr : Trace} (_h : Reached s tr) (n : String) (c : Nat) :
    (∀ m, getRunning (step s (.call (.interruptNet n c))).1 m = getRunning s m) ∧
    ((step s (.call (.interruptNet n c))).2 = .raised → (step s (.call (.interruptNet n c))).1 = s) := by
  rw [_h.step]
  simp only [doCall, interruptNet]
  split
  · split
    · exact ⟨fun _ => rfl, fun _ => rfl⟩
    · exact ⟨fun _ => rfl, fun e => by cases e⟩
  · exact ⟨fun _ => rfl, fun _ => rfl⟩

/-- Interrupts arrive in the order in which they were issued, at the same process with the same cause, at the time at which they were
issued; each once; when time goes on, all of them have arrived. -/
theorem c67_delivered {s : St} {tr : Trace} (h : Reached s tr) :
    (∃ later, issued tr = arrived tr ++ later ∧ ∀ x ∈ later, x.1 = s.now) ∧
    (issued tr).map (·.2.1) = List.range (issued tr).length ∧
    (∀ dt, (step s (.advance dt)).2 = .done → arrived tr = issued tr) := by
  have hi := h.inv
  refine ⟨⟨_, hi.arrivals, fun x hx => ?_⟩, ?_, fun dt ha => ?_⟩
  · obtain ⟨y, -, rfl⟩ := List.mem_map.1 hx
    rfl
  · have := congrArg List.length hi.nInt
    simp only [List.length_map, List.length_range] at this
    rw [this]; exact hi.nInt
  · have hu : s.urgent = [] := by
      unfold step at ha
      split at ha
      · cases ha
      · simp only at ha
        split at ha
        · rename_i hh
          simp only [quiet, Bool.and_eq_true, List.isEmpty_iff] at hh
          exact hh.1.1.2
        · cases ha
    have := hi.arrivals
    rw [hu] at this
    simpa [pend] using this.symm

/-- Two interrupts, of which one has arrived. -/
def exInt : List Op := exStart ++ [.advance 2, .call (.interruptNet "n" 7), .call (.interruptNet "n" 8), .urgent]

example : issued (run (init 0) [] exInt).2 = [(2, 0, 0, 7), (2, 1, 0, 8)] ∧ arrived (run (init 0) [] exInt).2 = [(2, 0, 0, 7)] ∧
    (run (init 0) [] exInt).1.crashed = false := by decide +kernel

/-- What becomes of an interrupt when it is its turn: a process that is over does not notice; one that is cleaning up after END or RESTART,
and one of a holding decision, are not prepared for it, and the simulation ends with an exception; any other is asked (`on_interrupt`),
at once, with the cause. -/
theorem c67_arrives {s : St} {tr : Trace} (h : Reached s tr) (ha : who tr = .nobody) {p k c : Nat} {r : List Urgent}
    (hu : s.urgent = .interrupt p k c :: r) :
    ∃ kind i, made tr p = some (kind, i) ∧
      (step s .urgent).2 =
        if Finished tr p then .dropped k p c
        else if closing tr p ≠ none ∨ kind = .decision then .crash
        else .called k p c := by
  have hi := h.inv
  have hp := hi.intLt p k c (by rw [hu]; exact List.mem_cons_self)
  have hord := hi.ordered
  rw [hu] at hord
  refine ⟨_, _, hi.made p hp, ?_⟩
  have hidle : s.active = .idle := by
    rw [hi.who] at ha
    unfold whoOf at ha
    cases hx : s.active with
    | idle => rfl
    | decision l =>
      obtain ⟨-, t, ht⟩ := hi.actDec l hx
      simp [hx, ht] at ha
    | _ => simp [hx] at ha
  have hc : s.crashed = false := h.choose_spec.choose_spec.2
  have hs : (step s .urgent).2 = (deliver { s with urgent := r } p k c).2 := by
    unfold step
    simp only [hc, Bool.false_eq_true, if_false, hidle, if_true, doUrgent, hu]
  rw [hs, hi.closing p hp]
  simp only [hi.fin p, hp, true_and, deliver]
  cases hph : s.phase p with
  | over => simp
  | fresh => exact absurd hph hord.1
  | closing b => cases b <;> simp [ending, crash]
  | live =>
    simp only [reduceCtorEq, if_false, ending, ne_eq, not_true, false_or]
    split <;> simp [crash]

/-- The first is answered by IGNORE: the second is asked about; by END, and the task returns: it is dropped; by END, and the task waits in
the `cancel` of a routine: the end. -/
example : (step (run (init 0) [] (exInt ++ [.answer (some (.act .ignore))])).1 .urgent).2 = .called 1 0 8 ∧
    (step (run (init 0) [] (exInt ++ [.answer none, .finish])).1 .urgent).2 = .dropped 1 0 8 ∧
    (step (run (init 0) [] (exInt ++ [.answer none, .sleep])).1 .urgent).2 = .crash ∧
    who (run (init 0) [] (exInt ++ [.answer none, .finish])).2 = .nobody ∧
    (run (init 0) [] (exInt ++ [.answer none, .finish])).1.urgent = [.interrupt 0 1 8] := by decide +kernel

/-- The answer to an interrupt: that of the user's `on_interrupt`, or, by default, the one marked with the last `set_marker` of the
task, END if there is none; a terminal task, and an answer that is none, end the simulation with an exception. -/
theorem c67_answer {s : St} {tr : Trace} (h : Reached s tr) {p : Nat} (hp : handling tr = some p) (a : Option Answer) :
    ∃ kind i, made tr p = some (kind, i) ∧
      (step s (.answer a)).2 =
        if kind = .terminal then .crash
        else match a.getD (.act (mark tr i).action) with
          | .bad => .crash
          | .act x => .answered p x := by
  have hi := h.inv
  have ha : s.active = .handler p := by rw [h.handling] at hp; exact (asked_iff s p).1 hp
  have hl := hi.actTask p (by rw [ha]; rfl)
  refine ⟨_, _, hi.made p hl.1, ?_⟩
  have hc : s.crashed = false := h.choose_spec.choose_spec.2
  unfold step
  simp only [hc, Bool.false_eq_true, if_false, answer, ha]
  rw [← hi.marks _ (hi.instLt p hl.1)]
  split
  · rfl
  · unfold apply
    generalize a.getD _ = x
    cases x with
    | bad => rfl
    | act x => cases x <;> rfl

example : handling (run (init 0) [] exInt).2 = some 0 ∧ (step (run (init 0) [] exInt).1 (.answer none)).2 = .answered 0 .end_ := by decide +kernel

/-- When the code of a task returns, its process is over, but for one that answered RESTART: it begins again. Only a terminal task may not
return of itself. -/
theorem c67_return {s : St} {tr : Trace} (h : Reached s tr) {p : Nat} (hp : caller tr = some p) (hn : handling tr = none) :
    ∃ kind i, made tr p = some (kind, i) ∧
      (step s .finish).2 =
        match closing tr p with
        | some .restart => .restarted p
        | some _ => .finished p
        | none => if kind = .terminal then .crash else .finished p := by
  have hi := h.inv
  have ha : s.active = .task p := by
    rw [caller_eq hi] at hp
    cases hx : s.active with
    | task q => simp [hx, Active.proc] at hp; rw [hp]
    | handler q => rw [h.handling, (asked_iff s q).2 hx] at hn; cases hn
    | _ => simp [hx, Active.proc] at hp
  have hl := hi.actTask p (by rw [ha]; rfl)
  refine ⟨_, _, hi.made p hl.1, ?_⟩
  have hc : s.crashed = false := h.choose_spec.choose_spec.2
  unfold step
  simp only [hc, Bool.false_eq_true, if_false, finish, ha]
  rw [hi.closing p hl.1]
  cases hph : s.phase p with
  | over => exact absurd hph hl.2.1
  | fresh => exact absurd hph hl.2.2
  | closing b => cases b <;> rfl
  | live => simp only [ending]; split <;> rfl

example : caller (run (init 0) [] (exInt ++ [.answer (some (.act .restart))])).2 = some 0 ∧
    handling (run (init 0) [] (exInt ++ [.answer (some (.act .restart))])).2 = none ∧
    (step (run (init 0) [] (exInt ++ [.answer (some (.act .restart))])).1 .finish).2 = .restarted 0 := by decide +kernel

/-- `get_marker` and `get_marker_time` give what the last `set_marker` of that task said, and when; nothing after `clear_marker`. -/
theorem c67_markers {s : St} {tr : Trace} (h : Reached s tr) {i : Nat} (hi : i ∈ insts tr) :
    step s (.call (.getMarker i)) = (s, .marker (mark tr i).marker (mark tr i).time) := by
  have hinv := h.inv
  rw [h.step]
  simp only [doCall, if_pos (hinv.insts i hi), hinv.marks i (hinv.insts i hi)]

example : 0 ∈ insts (run (init 0) [] (exStart ++ [.advance 2, .call (.setMarker 0 "half" .ignore), .advance 1])).2 ∧
    (step (run (init 0) [] (exStart ++ [.advance 2, .call (.setMarker 0 "half" .ignore), .advance 1])).1 (.call (.getMarker 0))).2 =
      .marker (some "half") (some 2) := by decide +kernel

/-- Each task begun has its own process and its own instance: markers never come from another one. -/
theorem c67_fresh {s : St} {tr : Trace} (h : Reached s tr) : (procs tr).Nodup ∧ (insts tr).Nodup :=
  ⟨h.inv.procsNd, h.inv.instsNd⟩

example : insts (run (init 0) [] (exStart ++ [.wake 0, .finish, .resume 0, .decided])).2 = [2, 1, 0] ∧
    procs (run (init 0) [] (exStart ++ [.wake 0, .finish, .resume 0, .decided])).2 = [1, 0] := by decide +kernel

theorem eq_of_length_le_one {L : List Nat} (h : L.length ≤ 1) {a b : Nat} (ha : a ∈ L) (hb : b ∈ L) : a = b := by
  match L, h with
  | [], _ => cases ha
  | [x], _ => rw [List.mem_singleton.1 ha, List.mem_singleton.1 hb]

/-- Where a network was started once, one task runs at a time: all but the one begun last are over. And while a decision is being made,
that one is over too. -/
theorem c67_only {s : St} {tr : Trace} (h : Reached s tr) {o p : Nat} (hl : loops tr o ≤ 1) (hp : Begun tr o p) :
    Finished tr p ∨ ((∃ t, lastBegun tr o = some (t, p)) ∧ deciding tr o = none) := by
  have hi := h.inv
  have hone : ∀ l l', l < s.nLoop → l' < s.nLoop → (s.loop l).obj = o → (s.loop l').obj = o → l = l' := by
    intro l l' h1 h2 h3 h4
    rw [hi.count o] at hl
    by_contra hne
    have hmem : ∀ {l}, l < s.nLoop → (s.loop l).obj = o → l ∈ (List.range s.nLoop).filter fun l => decide ((s.loop l).obj = o) :=
      fun h1 h2 => by simp [h1, h2]
    exact hne (eq_of_length_le_one hl (hmem h1 h3) (hmem h2 h4))
  rcases hi.own o p hp with hf | ⟨l, t, h1, h2, h3⟩
  · exact .inl ((hi.fin p).2 ⟨hi.begunAt o p hp, hf⟩)
  · refine .inr ?_
    have hd : deciding tr o = none := by
      unfold deciding
      rw [hi.who]
      unfold whoOf
      cases ha : s.active with
      | decision l' =>
        obtain ⟨h4, t', h5⟩ := hi.actDec l' ha
        simp only [h5]
        rw [if_neg]
        intro e
        have := hone l l' h1 h4 h2 e
        subst this
        rw [h3] at h5; cases h5
      | _ => rfl
    refine ⟨?_, hd⟩
    cases hb : lastBegun tr o with
    | none =>
      exfalso
      have : ∀ tr : Trace, Begun tr o p → lastBegun tr o ≠ none := by
        intro tr
        induction tr with
        | nil => intro hb; obtain ⟨e, he, -⟩ := hb; cases he
        | cons e tr ih =>
          intro hb
          rw [begun_cons] at hb
          obtain ⟨τ, op, x⟩ := e
          cases x with
          | began o' q t k i =>
            simp only [lastBegun]
            by_cases e : o' = o
            · simp [e]
            · rw [if_neg e]
              refine ih (hb.resolve_left ?_)
              rintro ⟨t', k', i', e'⟩
              simp only [Out.began.injEq] at e'
              exact e e'.1
          | _ =>
            refine ih (hb.resolve_left ?_)
            rintro ⟨t', k', i', e'⟩
            cases e'
      exact this tr hp hb
    | some x =>
      obtain ⟨l', h4, h5, h6⟩ := hi.holder o x.1 x.2 hb hd
      have := hone l l' h1 h4 h2 h5
      subst this
      rw [h3] at h6
      cases h6
      exact ⟨_, rfl⟩

example : loops (run (init 0) [] (exStart ++ [.wake 0, .finish, .resume 0, .decided])).2 0 = 1 ∧
    Finished (run (init 0) [] (exStart ++ [.wake 0, .finish, .resume 0, .decided])).2 0 ∧
    lastBegun (run (init 0) [] (exStart ++ [.wake 0, .finish, .resume 0, .decided])).2 0 = some ("a", 1) := by decide +kernel

/-- While a decision is made in the loop, `get_running_task` gives its name with the process of the task before, which is over;
`interrupt_network` raises. -/
theorem c67_decision : ∃ s tr, Reached s tr ∧ Finished tr 0 ∧ deciding tr 0 = some "d" ∧
    (step s (.call (.getRunning "n"))).2 = .report (some ("d", 0)) ∧ (step s (.call (.interruptNet "n" 7))).2 = .raised :=
  ⟨_, _, exReached (exStart ++ [.wake 0, .finish, .resume 0]) (by decide +kernel), by decide +kernel, by decide +kernel,
    by decide +kernel, by decide +kernel⟩

/-- At the time at which a task ends, before the loop goes on, the task is still reported, and `interrupt_network` raises. -/
theorem c67_race : ∃ s tr, Reached s tr ∧ who tr = .nobody ∧ Finished tr 0 ∧
    (step s (.call (.getRunning "n"))).2 = .report (some ("a", 0)) ∧ (step s (.call (.interruptNet "n" 7))).2 = .raised ∧
    (step s (.resume 0)).2 = .decides 0 "d" 1 :=
  ⟨_, _, exReached (exStart ++ [.wake 0, .finish]) (by decide +kernel), by decide +kernel, by decide +kernel, by decide +kernel,
    by decide +kernel, by decide +kernel⟩

/-- A network started twice runs two tasks; the first is alive, but not reported, and cannot be interrupted. -/
theorem c67_twice : ∃ s tr, Reached s tr ∧ Begun tr 0 0 ∧ ¬ Finished tr 0 ∧ who tr = .nobody ∧ (step s (.advance 1)).2 = .done ∧
    (step s (.call .getAll)).2 = .reports [("n", "b", 1)] ∧ (step s (.call (.interruptNet "n" 7))).2 = .issued 0 1 7 :=
  ⟨_, _, exReached (exStart ++ [.call (.startLoop "n" (some "b")), .urgent, .urgent, .sleep]) (by decide +kernel),
    ⟨(0, .urgent, .began 0 0 "a" .normal 0), by decide +kernel, _, _, _, rfl⟩, by decide +kernel, by decide +kernel, by decide +kernel,
    by decide +kernel, by decide +kernel⟩

/-- RESTART runs the same instance again: the marker of the attempt before is still set, and so is what it says to do. -/
theorem c67_restart : ∃ s tr, Reached s tr ∧ caller tr = some 0 ∧ closing tr 0 = none ∧
    (step s (.call (.getMarker 0))).2 = .marker (some "half") (some 2) ∧ (mark tr 0).action = .restart :=
  ⟨_, _, exReached (exStart ++ [.advance 2, .call (.setMarker 0 "half" .restart), .advance 1, .call (.interruptNet "n" 7), .urgent, .answer none,
    .finish]) (by decide +kernel), by decide +kernel, by decide +kernel, by decide +kernel, by decide +kernel⟩

end Verif.Running
