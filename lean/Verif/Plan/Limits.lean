import Verif.Plan.Props
import Verif.Predict.Limits

/-!
# Where the rehearsal of a network does not predict

For all times. The other processes do nothing.
-/

namespace Verif.Plan

open Verif.Predict

variable {K : Type} [Field K] [LinearOrder K] [IsStrictOrderedRing K] {A Op Val : Type}

/-- Two tasks: `a` waits, `b` is over at once; `b` comes after `a`. -/
def twoTasks (d : K) (ca : List (Cmd K Op)) (allowed : List String) : Net K Op Val where
  jobs u := if u = "a" then some (.task (script (ca ++ [.yield (.new d)]))) else if u = "b" then some (.task (script [])) else none
  links u := if u = "a" then some ⟨some "b", allowed⟩ else none

/-- Nobody else does anything, and the loop goes on. -/
def quietly (n : Nat) : List (Turn K Op) := List.replicate n ⟨⟨[], []⟩, true⟩

theorem loop_quietly (M : Methods K (Agent A) Op Val) (N : Net K Op Val) (s : LSt K A Val) (n : Nat) :
    loop M N s (quietly (n + 1)) = loop M N (lstep M N ⟨⟨[], []⟩, true⟩ s) (quietly n) := rfl

/-- The first task, in the loop. -/
theorem first_task (M : Methods K (Agent A) Op Val) (t0 d : K) (hd : 0 < d) (allowed : List String) (x : Agent A) :
    loop M (twoTasks d [] allowed) ⟨{ Predict.init t0 x [] with status := .finished }, "a", .starting, [("a", t0)]⟩ (quietly 4) =
      ⟨⟨t0 + d, [], x, [⟨d, t0 + d, true⟩], 0, none, false, [.resumed], .finished⟩, "a", .ended, [("a", t0)]⟩ := by
  have c0 : codeOf (twoTasks d [] allowed : Net K Op Val) "a" [] = .yield (.new d) := rfl
  have c1 : codeOf (twoTasks d [] allowed : Net K Op Val) "a" [.resumed] = .ret := rfl
  have s1 : lstep M (twoTasks d [] allowed) ⟨⟨[], []⟩, true⟩ ⟨{ Predict.init t0 x [] with status := .finished }, "a", .starting, [("a", t0)]⟩ =
      ⟨⟨t0, [], x, [], 0, none, false, [], .running⟩, "a", .running, [("a", t0)]⟩ := rfl
  have s2 : lstep M (twoTasks d [] allowed) ⟨⟨[], []⟩, true⟩ ⟨⟨t0, [], x, [], 0, none, false, [], .running⟩, "a", .running, [("a", t0)]⟩ =
      ⟨⟨t0, [⟨t0 + d, false, .timeout 0⟩], x, [⟨d, t0 + d, false⟩], 0, some (.leaf 0), false, [], .running⟩, "a", .running, [("a", t0)]⟩ := by
    simp [lstep, Predict.step, c0, exec, valid, hd.le, build, doneOf, CTree.processed, scheduleL, schedule, phaseOf]
  have s3 : lstep M (twoTasks d [] allowed) ⟨⟨[], []⟩, true⟩
      ⟨⟨t0, [⟨t0 + d, false, .timeout 0⟩], x, [⟨d, t0 + d, false⟩], 0, some (.leaf 0), false, [], .running⟩, "a", .running, [("a", t0)]⟩ =
      ⟨⟨t0 + d, [], x, [⟨d, t0 + d, true⟩], 0, none, false, [.resumed], .running⟩, "a", .running, [("a", t0)]⟩ := by
    simp [lstep, Predict.step, tick, process, hit, CTree.is, scheduleL, phaseOf]
  have s4 : lstep M (twoTasks d [] allowed) ⟨⟨[], []⟩, true⟩ ⟨⟨t0 + d, [], x, [⟨d, t0 + d, true⟩], 0, none, false, [.resumed], .running⟩, "a", .running, [("a", t0)]⟩ =
      ⟨⟨t0 + d, [], x, [⟨d, t0 + d, true⟩], 0, none, false, [.resumed], .finished⟩, "a", .ended, [("a", t0)]⟩ := by
    simp [lstep, Predict.step, c1, exec, phaseOf]
  rw [loop_quietly, s1, loop_quietly, s2, loop_quietly, s3, loop_quietly, s4]
  rfl

theorem loop_append (M : Methods K (Agent A) Op Val) (N : Net K Op Val) (s : LSt K A Val) (gs gs' : List (Turn K Op)) : loop M N s (gs ++ gs') = loop M N (loop M N s gs) gs' := by
  induction gs generalizing s with
  | nil => rfl
  | cons g gs ih => exact ih _

/-- The first task, in the rehearsal. -/
theorem first_rehearsed (M : Methods K (Agent A) Op Val) (t0 d : K) (hd : 0 < d) (allowed names : List String) (stop : Option String) (hs : stop ≠ some "a") (x : Agent A) :
    rehearse M (twoTasks d [] allowed) t0 x ("a" :: names) stop 2 = ⟨⟨t0 + d, none, x, [⟨d, true⟩], [.resumed], .finished, [0]⟩, "a", names, .ended, [("a", t0)], none⟩ := by
  have c0 : rcodeOf (twoTasks d [] allowed : Net K Op Val) "a" [] = .yield (.new d) := rfl
  have c1 : rcodeOf (twoTasks d [] allowed : Net K Op Val) "a" [.resumed] = .ret := rfl
  have r0 : rehearse M (twoTasks d [] allowed) t0 x ("a" :: names) stop 0 = ⟨⟨t0, none, x, [], [], .running, []⟩, "a", names, .running, [("a", t0)], none⟩ := by
    simp only [rehearse, rstart, rbegin]
    rw [if_neg hs]
    rfl
  have r1 : rehearse M (twoTasks d [] allowed) t0 x ("a" :: names) stop 1 = ⟨⟨t0 + d, none, x, [⟨d, true⟩], [.resumed], .running, [0]⟩, "a", names, .running, [("a", t0)], none⟩ := by
    show nstep M _ stop (rehearse M (twoTasks d [] allowed) t0 x ("a" :: names) stop 0) = _
    rw [r0]
    simp [nstep, c0, rstep, valid, hasTime, hd.le, finish, news, total, lenOf, lastOf, rphaseOf]
  show nstep M _ stop (rehearse M (twoTasks d [] allowed) t0 x ("a" :: names) stop 1) = _
  rw [r1]
  simp [nstep, c1, rstep, rphaseOf]

/-- `b` may come after `a`, or it is not allowed. -/
def netAB (d : K) : Net K Unit Unit := twoTasks d [] ["b"]
def netNo (d : K) : Net K Unit Unit := twoTasks d [] []
/-- `a` looks at the queue. -/
def netLook (d : K) : Net K (DOp Unit) (DVal Unit) := twoTasks d [.act .getQueue] ["b"]

/-- A task that is queued when it is listed for the rehearsal: with an end task, it is rehearsed twice, but executed once. -/
theorem c78_queued (t0 d : K) (hd : 0 < d) :
    (rehearse (desk' noActor) (netAB d) t0 ((), ["a"]) ["a"] (some "b") 3).log = [("a", t0), ("a", t0 + d)] ∧
      (loop (desk' noActor) (netAB d) (start (netAB d) t0 ((), ["a"]) [] none) (quietly 5)).log = [("a", t0), ("b", t0 + d)] := by
  constructor
  · show (nstep _ _ _ (rehearse (desk' noActor) (netAB d) t0 ((), ["a"]) ["a"] (some "b") 2)).log = _
    rw [netAB, first_rehearsed _ t0 d hd ["b"] [] (some "b") (by simp) ((), ["a"])]
    simp [nstep, rproceed, nextName, twoTasks, rbegin]
  · show (loop _ _ _ (quietly 4 ++ quietly 1)).log = _
    have hs : start (netAB d) t0 ((), ["a"]) [] none = ⟨{ Predict.init t0 ((), []) [] with status := .finished }, "a", .starting, [("a", t0)]⟩ := rfl
    rw [loop_append, hs, netAB, first_task _ t0 d hd ["b"] ((), [])]
    rfl

/-- The network does not allow `b` after `a`: the rehearsal raises, the loop executes it. -/
theorem c78_unchecked (t0 d : K) (hd : 0 < d) :
    (rehearse (desk' noActor) (netNo d) t0 ((), []) ["a", "b"] none 3).phase = .dead ∧
      (loop (desk' noActor) (netNo d) (start (netNo d) t0 ((), ["a", "b"]) [] none) (quietly 5)).log = [("a", t0), ("b", t0 + d)] := by
  constructor
  · show (nstep _ _ _ (rehearse (desk' noActor) (netNo d) t0 ((), []) ["a", "b"] none 2)).phase = _
    rw [netNo, first_rehearsed _ t0 d hd [] ["b"] none (by simp) ((), [])]
    simp [nstep, rproceed, feasible, twoTasks]
  · show (loop _ _ _ (quietly 4 ++ quietly 1)).log = _
    have hs : start (netNo d) t0 ((), ["a", "b"]) [] none = ⟨{ Predict.init t0 ((), ["b"]) [] with status := .finished }, "a", .starting, [("a", t0)]⟩ := rfl
    rw [loop_append, hs, netNo, first_task _ t0 d hd [] ((), ["b"])]
    rfl

/-- A task that looks at the queue: the listed tasks are not in it when they are rehearsed. -/
theorem c78_looks (t0 d : K) :
    (rehearse (desk noActor) (netLook d) t0 ((), []) ["a", "b"] none 1).base.hist = [.val (.names [])] ∧
      (loop (desk noActor) (netLook d) (start (netLook d) t0 ((), ["a", "b"]) [] none) (quietly 2)).base.hist = [.val (.names ["b"])] := ⟨rfl, rfl⟩

end Verif.Plan
