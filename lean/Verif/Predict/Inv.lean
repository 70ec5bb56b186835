import Verif.Predict.Builds
import Mathlib.Data.List.Nodup

/-! # The queue and what the task waits for -/

namespace Verif.Predict

variable {K : Type} [Field K] [LinearOrder K] [IsStrictOrderedRing K] {A Op Val : Type}

/-- When a `Wait` is due. -/
def dueOf (ws : List (Wait K)) (k : Nat) : K := (ws[k]?.map (·.due)).getD 0

/-- The queue is as it should be at time `now`. -/
structure Queue (ids : List Nat) (now : K) (q : List (Item K)) (ws : List (Wait K)) (nx : Nat) : Prop where
  sorted : q.Pairwise (R ids)
  ahead : ∀ i ∈ q, now ≤ i.time
  nodup : ((q.map (·.ent)).filter (· ≠ .other)).Nodup
  timeout : ∀ i ∈ q, ∀ k, i.ent = .timeout k → k < ws.length ∧ doneOf ws k = false ∧ dueOf ws k = i.time
  left : ∀ k, k < ws.length → doneOf ws k = false → ⟨dueOf ws k, false, .timeout k⟩ ∈ q
  past : ∀ k, doneOf ws k = true → dueOf ws k ≤ now
  cond : ∀ i ∈ q, ∀ id, i.ent = .cond id → id < nx

theorem R_nil {ids : List Nat} {x y : Item K} (h : R ids x y) : R [] x y := ⟨h.1, fun _ hid => (List.not_mem_nil hid).elim⟩

theorem Queue.nil {ids : List Nat} {now : K} {q : List (Item K)} {ws : List (Wait K)} {nx : Nat} (h : Queue ids now q ws nx) : Queue [] now q ws nx :=
  { h with sorted := h.sorted.imp R_nil }

/-- The first entry is the only one of its kind. -/
theorem Queue.only {ids : List Nat} {now : K} {i : Item K} {q : List (Item K)} {ws : List (Wait K)} {nx : Nat} (h : Queue ids now (i :: q) ws nx)
    (hi : i.ent ≠ .other) : ∀ j ∈ q, j.ent ≠ i.ent := by
  intro j hj he
  have := h.nodup
  rw [List.map_cons, List.filter_cons_of_pos (by simpa using hi)] at this
  refine (List.nodup_cons.1 this).1 (List.mem_filter.2 ⟨List.mem_map.2 ⟨j, hj, he⟩, by simpa using hi⟩)

/-- The first entry is taken. -/
theorem Queue.pop {ids : List Nat} {now : K} {i : Item K} {q : List (Item K)} {ws ws' : List (Wait K)} {nx : Nat} (h : Queue ids now (i :: q) ws nx)
    (hd : ∀ k, doneOf ws' k = (doneOf ws k || decide (i.ent = .timeout k))) (hdue : ∀ k, dueOf ws' k = dueOf ws k) (hl : ws'.length = ws.length) :
    Queue ids i.time q ws' nx where
  sorted := (List.pairwise_cons.1 h.sorted).2
  ahead := fun j hj => ((List.pairwise_cons.1 h.sorted).1 j hj).1
  nodup := by
    have := h.nodup
    rw [List.map_cons] at this
    exact this.sublist (List.Sublist.filter _ (List.sublist_cons_self _ _))
  timeout := fun j hj k hk => by
    obtain ⟨h1, h2, h3⟩ := h.timeout j (List.mem_cons_of_mem _ hj) k hk
    refine ⟨by omega, ?_, by rw [hdue, h3]⟩
    rw [hd, h2, Bool.false_or, decide_eq_false_iff_not]
    intro he
    exact h.only (by rw [he]; simp) j hj (by rw [he, hk])
  left := fun k hk hn => by
    rw [hd, Bool.or_eq_false_iff, decide_eq_false_iff_not] at hn
    rw [hdue]
    rcases List.mem_cons.1 (h.left k (by omega) hn.1) with he | he
    · exact absurd (by rw [← he]) hn.2
    · exact he
  past := fun k hk => by
    rw [hd, Bool.or_eq_true, decide_eq_true_eq] at hk
    rw [hdue]
    rcases hk with hk | hk
    · exact (h.past k hk).trans (h.ahead i (List.mem_cons_self ..))
    · exact (h.timeout i (List.mem_cons_self ..) k hk).2.2.le
  cond := fun j hj => h.cond j (List.mem_cons_of_mem _ hj)

/-- Nothing but the queue changes. -/
theorem Queue.push {ids : List Nat} {now : K} {q : List (Item K)} {ws : List (Wait K)} {nx : Nat} (h : Queue ids now q ws nx) (ys : List (Item K))
    (hs : (scheduleL ys q).Pairwise (R ids)) (ha : ∀ y ∈ ys, now ≤ y.time) (hn : ((ys.map (·.ent)).filter (· ≠ .other)).Nodup)
    (hd : ∀ y ∈ ys, y.ent ≠ .other → ∀ j ∈ q, j.ent ≠ y.ent) (ht : ∀ y ∈ ys, ∀ k, y.ent ≠ .timeout k) (hc : ∀ y ∈ ys, ∀ id, y.ent = .cond id → id < nx) :
    Queue ids now (scheduleL ys q) ws nx where
  sorted := hs
  ahead := fun j hj => by
    rcases mem_scheduleL.1 hj with hj | hj
    · exact ha j hj
    · exact h.ahead j hj
  nodup := by
    have hp := ((scheduleL_perm ys q).map (·.ent)).filter (· ≠ .other)
    rw [List.map_append, List.filter_append] at hp
    rw [hp.nodup_iff, List.nodup_append]
    refine ⟨hn, h.nodup, fun a ha b hb he => ?_⟩
    subst he
    obtain ⟨h1, h2⟩ := List.mem_filter.1 ha
    obtain ⟨y, hy, rfl⟩ := List.mem_map.1 h1
    obtain ⟨j, hj, he⟩ := List.mem_map.1 (List.mem_filter.1 hb).1
    exact hd y hy (by simpa using h2) j hj he
  timeout := fun j hj k hk => by
    rcases mem_scheduleL.1 hj with hj | hj
    · exact absurd hk (ht j hj k)
    · exact h.timeout j hj k hk
  left := fun k hk hn => mem_scheduleL.2 (.inr (h.left k hk hn))
  past := h.past
  cond := fun j hj => by
    rcases mem_scheduleL.1 hj with hj | hj
    · exact hc j hj
    · exact h.cond j hj

/-- Other processes put things into the queue. -/
theorem Queue.others {ids : List Nat} {now : K} {q : List (Item K)} {ws : List (Wait K)} {nx : Nat} (h : Queue ids now q ws nx) (ps : List (K × Bool))
    (hp : ∀ p ∈ ps, 0 ≤ p.1) : Queue ids now (scheduleL (ps.map fun p => ⟨now + p.1, p.2, .other⟩) q) ws nx := by
  have ho : ∀ y ∈ ps.map fun p => (⟨now + p.1, p.2, .other⟩ : Item K), y.ent = .other := by
    intro y hy
    obtain ⟨p, -, rfl⟩ := List.mem_map.1 hy
    rfl
  refine h.push _ (sorted_others ids _ ho q h.sorted) (fun y hy => ?_) ?_ (fun y hy hne => absurd (ho y hy) hne) (fun y hy k hk => by rw [ho y hy] at hk; cases hk)
    (fun y hy k hk => by rw [ho y hy] at hk; cases hk)
  · obtain ⟨p, hm, rfl⟩ := List.mem_map.1 hy
    have := hp p hm
    show now ≤ now + p.1
    linarith
  · have : (List.map (·.ent) (ps.map fun p => (⟨now + p.1, p.2, .other⟩ : Item K))).filter (· ≠ .other) = [] := by
      rw [List.filter_eq_nil_iff]
      intro x hx
      obtain ⟨y, hy, rfl⟩ := List.mem_map.1 hx
      simp [ho y hy]
    rw [this]
    exact List.nodup_nil

/-- Conditions succeed. -/
theorem Queue.conds {ids : List Nat} {now : K} {q : List (Item K)} {ws : List (Wait K)} {nx : Nat} (h : Queue ids now q ws nx) (cs : List Nat)
    (hn : cs.Nodup) (hc : ∀ id ∈ cs, id < nx ∧ ∀ j ∈ q, j.ent ≠ .cond id) : Queue ids now (scheduleL (cs.map fun id => ⟨now, false, .cond id⟩) q) ws nx := by
  refine h.push _ (sorted_conds ids now cs q h.sorted) (fun y hy => ?_) ?_ (fun y hy _ => ?_) (fun y hy k hk => ?_) (fun y hy id hid => ?_)
  · obtain ⟨p, hm, rfl⟩ := List.mem_map.1 hy
    exact le_refl _
  · rw [List.map_map]
    refine List.Nodup.sublist List.filter_sublist (hn.map ?_)
    intro a b hab
    simpa using hab
  · obtain ⟨p, hm, rfl⟩ := List.mem_map.1 hy
    exact (hc p hm).2
  · obtain ⟨p, hm, rfl⟩ := List.mem_map.1 hy
    cases hk
  · obtain ⟨p, hm, rfl⟩ := List.mem_map.1 hy
    cases hid
    exact (hc _ hm).1

/-- The number of the condition that is waited for. -/
def root : CTree → List Nat
  | .leaf _ => []
  | .node id .. => [id]

/-- What the task waits for is as it should be. -/
structure Awaits (now : K) (q : List (Item K)) (ws : List (Wait K)) (nx : Nat) (c : CTree) : Prop where
  queue : Queue (root c) now q ws nx
  ok : Ok now q (doneOf ws) (dueOf ws) c
  unp : c.processed (doneOf ws) = false
  ids : ((nodes c).map (·.1)).Nodup
  below : ∀ p ∈ nodes c, p.1 < nx
  trig : ∀ i ∈ q, ∀ id st, i.ent = .cond id → (id, st) ∈ nodes c → st = .triggered
  leaves : ∀ k ∈ leaves c, k < ws.length

mutual
theorem Ok.mono {now now' : K} {q q' : List (Item K)} {done : Nat → Bool} {due : Nat → K} (hn : now ≤ now') (hq : ∀ j ∈ q, j.ent ≠ .other → j ∈ q') :
    ∀ t, Ok now q done due t → Ok now' q' done due t
  | .leaf k, h => ⟨fun hd => (h.1 hd).trans hn, fun hd => hq _ (h.2 hd) (by simp)⟩
  | .node id all c st ms, ⟨hL, h1, h2, h3, h4⟩ => ⟨OkL.mono hn hq ms hL, h1, h2, fun hs => hq _ (h3 hs) (by simp), fun hs => (h4 hs).trans hn⟩
theorem OkL.mono {now now' : K} {q q' : List (Item K)} {done : Nat → Bool} {due : Nat → K} (hn : now ≤ now') (hq : ∀ j ∈ q, j.ent ≠ .other → j ∈ q') :
    ∀ ms, OkL now q done due ms → OkL now' q' done due ms
  | [], _ => trivial
  | m :: ms, h => ⟨Ok.mono hn hq m h.1, OkL.mono hn hq ms h.2⟩
end

theorem nodup_fst {l : List (Nat × CStat)} (h : (l.map (·.1)).Nodup) {id : Nat} {a b : CStat} (ha : (id, a) ∈ l) (hb : (id, b) ∈ l) : a = b := by
  induction l with
  | nil => cases ha
  | cons p l ih =>
    rw [List.map_cons, List.nodup_cons] at h
    rcases List.mem_cons.1 ha with ha | ha
    · rcases List.mem_cons.1 hb with hb | hb
      · rw [← ha] at hb; exact (Prod.mk.inj hb).2.symm
      · exact absurd (List.mem_map.2 ⟨_, hb, by rw [← ha]⟩) h.1
    · rcases List.mem_cons.1 hb with hb | hb
      · exact absurd (List.mem_map.2 ⟨_, ha, by rw [← hb]⟩) h.1
      · exact ih h.2 ha hb

/-- Others have their turn. -/
theorem Awaits.other {now : K} {i : Item K} {q : List (Item K)} {ws : List (Wait K)} {nx : Nat} {c : CTree} (h : Awaits now (i :: q) ws nx c) (hi : i.ent = .other)
    (ps : List (K × Bool)) (hp : ∀ p ∈ ps, 0 ≤ p.1) : Awaits i.time (scheduleL (ps.map fun p => ⟨i.time + p.1, p.2, .other⟩) q) ws nx c where
  queue := (h.queue.pop (ws' := ws) (fun k => by simp [hi]) (fun _ => rfl) rfl).others ps hp
  ok := h.ok.mono (h.queue.ahead i (List.mem_cons_self ..)) (fun j hj hne => by
    rcases List.mem_cons.1 hj with rfl | hj
    · exact absurd hi hne
    · exact mem_scheduleL.2 (.inr hj))
  unp := h.unp
  ids := h.ids
  below := h.below
  trig := fun j hj id st he hm => by
    rcases mem_scheduleL.1 hj with hj | hj
    · obtain ⟨p, -, rfl⟩ := List.mem_map.1 hj
      cases he
    · exact h.trig j (List.mem_cons_of_mem _ hj) id st he hm
  leaves := h.leaves

/-- An event of the task is processed: where the task is then. -/
structure Turned (now : K) (i : Item K) (q : List (Item K)) (ws ws' : List (Wait K)) (nx : Nat) (c : CTree) : Prop where
  stays : c.is i.ent = false → Awaits i.time (scheduleL ((hit i.ent c).2.map fun id => ⟨i.time, false, .cond id⟩) q) ws' nx (hit i.ent c).1
  queue : Queue [] i.time (scheduleL ((hit i.ent c).2.map fun id => ⟨i.time, false, .cond id⟩) q) ws' nx
  goes : c.is i.ent = true → fin (dueOf ws) c = i.time ∧ ∀ k ∈ leaves c, doneOf ws' k = decide (dueOf ws k ≤ i.time)

theorem root_hit (x : Ent) (c : CTree) : root (hit x c).1 = root c := by cases c <;> rfl

mutual
theorem leaf_ok {now : K} {q : List (Item K)} {done : Nat → Bool} {due : Nat → K} : ∀ t, Ok now q done due t → ∀ k ∈ leaves t, (done k = true → due k ≤ now) ∧
    (done k = false → ⟨due k, false, .timeout k⟩ ∈ q)
  | .leaf k, h => fun j hj => by
    simp only [leaves, List.mem_singleton] at hj
    subst hj
    exact h
  | .node id all c st ms, h => leafL_ok ms h.1
theorem leafL_ok {now : K} {q : List (Item K)} {done : Nat → Bool} {due : Nat → K} : ∀ ms, OkL now q done due ms → ∀ k ∈ leavesL ms, (done k = true → due k ≤ now) ∧
    (done k = false → ⟨due k, false, .timeout k⟩ ∈ q)
  | [], _ => fun _ h => (List.not_mem_nil h).elim
  | m :: ms, h => fun k hk => by
    rcases List.mem_append.1 hk with hk | hk
    · exact leaf_ok m h.1 k hk
    · exact leafL_ok ms h.2 k hk
end

theorem Awaits.turn {now : K} {i : Item K} {q : List (Item K)} {ws ws' : List (Wait K)} {nx : Nat} {c : CTree} (h : Awaits now (i :: q) ws nx c) (hi : i.ent ≠ .other)
    (hd : ∀ k, doneOf ws' k = (doneOf ws k || decide (i.ent = .timeout k))) (hdue : ∀ k, dueOf ws' k = dueOf ws k) (hl : ws'.length = ws.length) :
    Turned now i q ws ws' nx c := by
  have hpop := h.queue.pop hd hdue hl
  have hdue' : dueOf ws' = dueOf ws := funext hdue
  have hx : ∀ id st, i.ent = .cond id → (id, st) ∈ nodes c → st = .triggered := fun id st => h.trig i (List.mem_cons_self ..) id st
  have hT : Turn now i q (scheduleL ((hit i.ent c).2.map fun id => ⟨i.time, false, .cond id⟩) q) (doneOf ws) (doneOf ws') (dueOf ws) (hit i.ent c).2 :=
    { first := fun j hj => ((List.pairwise_cons.1 h.queue.sorted).1 j hj).1
      later := h.queue.ahead i (List.mem_cons_self ..)
      only := h.queue.only hi
      done' := hd
      wait := fun k hk => (h.queue.timeout i (List.mem_cons_self ..) k hk).2
      keep := fun j hj => mem_scheduleL.2 (.inr hj)
      add := fun id hid => mem_scheduleL.2 (.inl (List.mem_map.2 ⟨id, hid, rfl⟩)) }
  obtain ⟨g1, g2, g3, -⟩ := hit_ok now i q _ (doneOf ws) (doneOf ws') (dueOf ws) c hT h.ok hx
  obtain ⟨s1, s2, s3, s4, -⟩ := hit_same i.ent (dueOf ws) c
  obtain ⟨n1, n2⟩ := hit_nodes i.ent c hx
  have hcs : ∀ id ∈ (hit i.ent c).2, id < nx ∧ ∀ j ∈ q, j.ent ≠ .cond id := fun id hid => by
    refine ⟨h.below _ (n2 id hid).2, fun j hj he => ?_⟩
    have := h.trig j (List.mem_cons_of_mem _ hj) id _ he (n2 id hid).2
    cases this
  have hcn : (hit i.ent c).2.Nodup := h.ids.sublist s4
  refine ⟨fun hs => ?_, (hpop.nil).conds _ hcn hcs, fun hs => ⟨(g3 hs).2, fun k hk => ?_⟩⟩
  · refine ⟨by rw [root_hit]; exact hpop.conds _ hcn hcs, by rw [hdue']; exact g1, by rw [g2, h.unp, hs]; rfl, by rw [s3]; exact h.ids, fun p hp => ?_, ?_, by rw [s2, hl]; exact h.leaves⟩
    · have : p.1 ∈ (nodes (hit i.ent c).1).map (·.1) := List.mem_map.2 ⟨p, hp, rfl⟩
      rw [s3] at this
      obtain ⟨p', hp', he⟩ := List.mem_map.1 this
      rw [← he]
      exact h.below p' hp'
    · intro j hj id st he hm
      have hnd : ((nodes (hit i.ent c).1).map (·.1)).Nodup := by rw [s3]; exact h.ids
      rcases mem_scheduleL.1 hj with hj | hj
      · obtain ⟨p, hpm, rfl⟩ := List.mem_map.1 hj
        cases he
        exact nodup_fst hnd hm (n2 _ hpm).1
      · have : id ∈ (nodes (hit i.ent c).1).map (·.1) := List.mem_map.2 ⟨_, hm, rfl⟩
        rw [s3] at this
        obtain ⟨⟨id', st'⟩, hp', he'⟩ := List.mem_map.1 this
        cases he'
        have h0 := h.trig j (List.mem_cons_of_mem _ hj) _ st' he hp'
        subst h0
        exact nodup_fst hnd hm (n1 _ (fun hh => h.queue.only hi j hj (by rw [he, hh])) hp')
  · have hlf := leaf_ok _ g1 k (by rw [s2]; exact hk)
    cases hb : doneOf ws' k with
    | true => exact (decide_eq_true (hlf.1 hb)).symm
    | false =>
      symm
      rw [decide_eq_false_iff_not, not_le]
      cases c with
      | leaf k' =>
        simp only [Verif.Predict.leaves, List.mem_singleton] at hk
        subst hk
        have : i.ent = .timeout k := by simpa [CTree.is] using hs
        rw [hd, this] at hb
        simp at hb
      | node id all c st ms =>
        have hid : i.ent = .cond id := by simpa [CTree.is] using hs
        have hin := hpop.left k (by rw [hl]; exact h.leaves k hk) hb
        have := ((List.pairwise_cons.1 h.queue.sorted).1 _ hin).2 id (by simp [root]) hid k rfl
        rw [← hdue]
        exact this

/-- A new event is waited for. -/
theorem Queue.yield {ids : List Nat} {now : K} {q : List (Item K)} {ws : List (Wait K)} {nx : Nat} (h : Queue ids now q ws nx) (e : Tree K) (hf : fresh e = true) (ht : hasTime e = true)
    (hv : ∃ n, valid n e = true) : let r := build now ⟨ws, nx, []⟩ e
    Awaits now (scheduleL r.1.sched q) r.1.waits r.1.next r.2 ∧ fin (dueOf r.1.waits) r.2 = now + total (fun _ => 0) e ∧
      (∀ j t, (news e)[j]? = some t → dueOf r.1.waits (ws.length + j) = now + t) := by
  intro r
  obtain ⟨n, hv⟩ := hv
  obtain ⟨g, gp⟩ := build_made now e ⟨ws, nx, []⟩ hf ht
  have hw : r.1.waits = ws ++ (news e).map fun t => ⟨t, now + t, false⟩ := build_waits now e _
  have hsch : r.1.sched = outs now ws.length (news e) := by have := g.sched; simpa using this
  have hdue : ∀ j t, (news e)[j]? = some t → dueOf r.1.waits (ws.length + j) = now + t := fun j t hj => by
    rw [dueOf, hw, List.getElem?_append_right (by omega), Nat.add_sub_cancel_left, List.getElem?_map, hj]
    rfl
  have hdone : ∀ k, ws.length ≤ k → doneOf r.1.waits k = false := fun k hk => by
    rw [doneOf, hw, List.getElem?_append_right hk, List.getElem?_map]
    cases (news e)[k - ws.length]? <;> rfl
  have hold : ∀ k, k < ws.length → doneOf r.1.waits k = doneOf ws k ∧ dueOf r.1.waits k = dueOf ws k := fun k hk => by
    rw [doneOf, dueOf, hw, List.getElem?_append_left hk]
    exact ⟨rfl, rfl⟩
  have hnc : ∀ i ∈ q, ∀ id ∈ root r.2, i.ent ≠ .cond id := fun i hi id hid he => by
    have h1 := h.cond i hi id he
    cases hr : r.2 with
    | leaf k => rw [hr] at hid; cases hid
    | node id' all c st ms =>
      rw [hr] at hid
      simp only [root, List.mem_singleton] at hid
      subst hid
      have h2 := (g.ids (id, st) (by show _ ∈ nodes r.2; rw [hr]; simp [nodes])).2.1
      have h2 : nx ≤ id := h2
      omega
  have htimeouts : ∀ y ∈ outs now ws.length (news e), ∃ k, y.ent = .timeout k := fun y hy => by
    obtain ⟨j, t, -, rfl⟩ := mem_outs.1 hy
    exact ⟨_, rfl⟩
  have hq : Queue (root r.2) now (scheduleL r.1.sched q) r.1.waits r.1.next := by
    rw [hsch]
    refine ⟨sorted_timeouts _ _ htimeouts q ?_ hnc, ?_, ?_, ?_, ?_, ?_, ?_⟩
    · refine List.Pairwise.imp_of_mem ?_ h.sorted
      intro x y hx hy hr
      exact ⟨hr.1, fun id hid he => absurd he (hnc x hx id hid)⟩
    · intro j hj
      rcases mem_scheduleL.1 hj with hj | hj
      · obtain ⟨m, t, hm, rfl⟩ := mem_outs.1 hj
        have := news_nonneg n e hv t (List.mem_of_getElem? hm)
        show now ≤ now + t
        linarith
      · exact h.ahead j hj
    · have hp := ((scheduleL_perm (outs now ws.length (news e)) q).map (·.ent)).filter (· ≠ .other)
      rw [List.map_append, List.filter_append] at hp
      rw [hp.nodup_iff, List.nodup_append]
      refine ⟨List.Nodup.sublist List.filter_sublist ?_, h.nodup, fun a ha b hb he => ?_⟩
      · generalize ws.length = n
        generalize news e = ts
        induction ts generalizing n with
        | nil => exact List.nodup_nil
        | cons t ts ih =>
          simp only [outs, List.map_cons, List.nodup_cons]
          refine ⟨fun hm => ?_, ih _⟩
          obtain ⟨y, hy, he⟩ := List.mem_map.1 hm
          obtain ⟨j, u, -, rfl⟩ := mem_outs.1 hy
          simp only [Ent.timeout.injEq] at he
          omega
      · subst he
        obtain ⟨y, hy, he⟩ := List.mem_map.1 (List.mem_filter.1 ha).1
        obtain ⟨j, hj, he'⟩ := List.mem_map.1 (List.mem_filter.1 hb).1
        obtain ⟨m, t, -, rfl⟩ := mem_outs.1 hy
        have := (h.timeout j hj (ws.length + m) (by rw [he', ← he])).1
        omega
    · intro j hj k hk
      rcases mem_scheduleL.1 hj with hj | hj
      · obtain ⟨m, t, hm, rfl⟩ := mem_outs.1 hj
        cases hk
        refine ⟨?_, hdone _ (by omega), hdue m t hm⟩
        rw [hw, List.length_append, List.length_map]
        have := (List.getElem?_eq_some_iff.1 hm).1
        omega
      · obtain ⟨h1, h2, h3⟩ := h.timeout j hj k hk
        obtain ⟨e1, e2⟩ := hold k h1
        refine ⟨?_, by rw [e1, h2], by rw [e2, h3]⟩
        rw [hw, List.length_append]
        omega
    · intro k hk hn
      rcases Nat.lt_or_ge k ws.length with hlt | hge
      · obtain ⟨e1, e2⟩ := hold k hlt
        rw [e2]
        exact mem_scheduleL.2 (.inr (h.left k hlt (by rw [← e1]; exact hn)))
      · rw [hw, List.length_append, List.length_map] at hk
        obtain ⟨t, hm⟩ : ∃ t, (news e)[k - ws.length]? = some t := ⟨_, List.getElem?_eq_getElem (by omega)⟩
        have hk' : ws.length + (k - ws.length) = k := by omega
        have := hdue _ t hm
        rw [hk'] at this
        rw [this]
        exact mem_scheduleL.2 (.inl (mem_outs.2 ⟨_, t, hm, by rw [hk']⟩))
    · intro k hk
      rcases Nat.lt_or_ge k ws.length with hlt | hge
      · obtain ⟨e1, e2⟩ := hold k hlt
        rw [e2]
        exact h.past k (by rw [← e1]; exact hk)
      · rw [hdone k hge] at hk; cases hk
    · intro j hj id he
      rcases mem_scheduleL.1 hj with hj | hj
      · obtain ⟨k, hk⟩ := htimeouts j hj
        rw [hk] at he; cases he
      · exact (h.cond j hj id he).trans_le g.next
  refine ⟨⟨hq, ?_, gp _ hdone, g.nodup, fun p hp => (g.ids p hp).2.2, ?_, fun k hk => ?_⟩, build_fin now _ _ e _ hf ht hdue, hdue⟩
  · exact build_ok now _ _ _ e _ hf ht hdue hdone (fun i hi => mem_scheduleL.2 (.inl (by rw [hsch]; exact hi)))
  · intro j hj id st he hm
    exfalso
    have h2 : nx ≤ id := (g.ids _ hm).2.1
    rw [hsch] at hj
    rcases mem_scheduleL.1 hj with hj | hj
    · obtain ⟨k, hk⟩ := htimeouts j hj
      rw [hk] at he; cases he
    · have := h.cond j hj id he
      omega
  · have := (g.leaves k hk).2
    rw [hw, List.length_append, List.length_map]
    exact this

end Verif.Predict
