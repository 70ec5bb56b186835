import Verif.Network.Props

/-!
# C25: what the networks made by the factories allow

`is_feasible` is what the rehearsal of a network asks before it follows a plan. In the networks the factories make, every task may be
followed by the task that follows it by default, and by no other.
-/

namespace Verif.Network

/-- **C25.** In a single looping network the task may be followed by itself only. -/
theorem c25_feasible_looping (t : String) (kd : Kind) (u : String) :
    isFeasible (singleLooping t kd) t u = some (decide (u = t)) := by
  simp [isFeasible, singleLooping, Dict.get?_cons]

/-- **C25.** In a single terminating network the task may be followed by the terminal task only. -/
theorem c25_feasible_terminating (t : String) (kd : Kind) (u : String) :
    isFeasible (singleTerminating t kd) t u = some (decide (u = t ++ "_FINAL")) := by
  simp [isFeasible, singleTerminating, Dict.get?_cons]

theorem orderedTermLoop_allowed (name : String) : ∀ (l : List (String × Kind)) (net : Net), (l.map Prod.fst).Nodup →
    name ++ "_TERMINATING" ∉ l.map Prod.fst →
    (∀ i (h : i < l.length), ((orderedTermLoop name l net).links.get? l[i].1).map Links.allowed =
        some [if h' : i + 1 < l.length then l[i + 1].1 else name ++ "_TERMINATING"])
  | [], _, _, _ => fun i h => by simp at h
  | [(u, k)], net, _, _ => by
    intro i h
    have : i = 0 := by simpa using h
    subst this
    simp [orderedTermLoop]
  | (u, k) :: (v, k') :: r, net, hn, ht => by
    have hn' : (((v, k') :: r).map Prod.fst).Nodup := (List.nodup_cons.1 hn).2
    have hu : u ∉ ((v, k') :: r).map Prod.fst := (List.nodup_cons.1 hn).1
    intro i h
    cases i with
    | zero =>
      obtain ⟨g1, g2⟩ := orderedTermLoop_get name ((v, k') :: r)
        ⟨net.classes.set u k, net.links.set u ⟨some v, [v]⟩⟩ u hu (fun e => ht (by simp [e]))
      simp only [orderedTermLoop, List.getElem_cons_zero]
      rw [g2]
      simp
    | succ i =>
      have := orderedTermLoop_allowed name ((v, k') :: r) ⟨net.classes.set u k, net.links.set u ⟨some v, [v]⟩⟩ hn'
        (fun hm => ht (by simp at hm ⊢; exact Or.inr hm)) i (by simpa using h)
      simp only [orderedTermLoop, List.getElem_cons_succ] at this ⊢
      rw [this]
      simp

theorem orderedLoopLoop_allowed (first : String) : ∀ (l : List (String × Kind)) (net : Net), (l.map Prod.fst).Nodup →
    (∀ i (h : i < l.length), ((orderedLoopLoop first l net).links.get? l[i].1).map Links.allowed =
        some [if h' : i + 1 < l.length then l[i + 1].1 else first])
  | [], _, _ => fun i h => by simp at h
  | [(u, k)], net, _ => by
    intro i h
    have : i = 0 := by simpa using h
    subst this
    simp [orderedLoopLoop]
  | (u, k) :: (v, k') :: r, net, hn => by
    have hn' : (((v, k') :: r).map Prod.fst).Nodup := (List.nodup_cons.1 hn).2
    have hu : u ∉ ((v, k') :: r).map Prod.fst := (List.nodup_cons.1 hn).1
    intro i h
    cases i with
    | zero =>
      obtain ⟨g1, g2⟩ := orderedLoopLoop_get first ((v, k') :: r)
        ⟨net.classes.set u k, net.links.set u ⟨some v, [v]⟩⟩ u hu
      simp only [orderedLoopLoop, List.getElem_cons_zero]
      rw [g2]
      simp
    | succ i =>
      have := orderedLoopLoop_allowed first ((v, k') :: r) ⟨net.classes.set u k, net.links.set u ⟨some v, [v]⟩⟩ hn' i
        (by simpa using h)
      simp only [orderedLoopLoop, List.getElem_cons_succ] at this ⊢
      rw [this]
      simp

/-- **C25.** In an ordered terminating network every task may be followed by the next one of the list only, the last by the terminal task
only. -/
theorem c25_feasible_ordered_terminating (name : String) (l : List (String × Kind)) (hn : (l.map Prod.fst).Nodup)
    (ht : name ++ "_TERMINATING" ∉ l.map Prod.fst) (i : Nat) (h : i < l.length) (u : String) :
    isFeasible (orderedTerminating name l) l[i].1 u =
      some (decide (u = if h' : i + 1 < l.length then l[i + 1].1 else name ++ "_TERMINATING")) := by
  have := orderedTermLoop_allowed name l ⟨[], []⟩ hn ht i h
  unfold isFeasible orderedTerminating
  cases e : (orderedTermLoop name l ⟨[], []⟩).links.get? l[i].1 with
  | none => rw [e] at this; cases this
  | some k =>
    rw [e] at this
    simp only [Option.map_some, Option.some.injEq] at this ⊢
    rw [this]
    simp

/-- **C25.** In an ordered loop every task may be followed by the next one of the list only, the last by the first only. -/
theorem c25_feasible_ordered_loop (t : String) (kd : Kind) (r : List (String × Kind)) (hn : (((t, kd) :: r).map Prod.fst).Nodup)
    (i : Nat) (h : i < r.length + 1) (u : String) :
    isFeasible (orderedLoop ((t, kd) :: r)) (((t, kd) :: r)[i]'h).1 u =
      some (decide (u = if h' : i + 1 < r.length + 1 then (((t, kd) :: r)[i + 1]'h').1 else t)) := by
  have := orderedLoopLoop_allowed t ((t, kd) :: r) ⟨[], []⟩ hn i h
  unfold isFeasible orderedLoop
  simp only
  cases e : (orderedLoopLoop t ((t, kd) :: r) ⟨[], []⟩).links.get? (((t, kd) :: r)[i]'h).1 with
  | none => rw [e] at this; cases this
  | some k =>
    rw [e] at this
    simp only [Option.map_some, Option.some.injEq, List.length_cons] at this ⊢
    rw [this]
    simp

/-- Three tasks in a row, and round again. -/
example : (([("A", Kind.normal), ("B", .decision), ("C", .normal)] : List (String × Kind)).map Prod.fst).Nodup ∧
    isFeasible (orderedLoop [("A", .normal), ("B", .decision), ("C", .normal)]) "C" "A" = some true ∧
    isFeasible (orderedLoop [("A", .normal), ("B", .decision), ("C", .normal)]) "C" "B" = some false ∧
    isFeasible (orderedTerminating "net" [("A", .normal), ("B", .decision)]) "B" "net_TERMINATING" = some true := by decide +kernel

end Verif.Network
