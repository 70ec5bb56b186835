import Verif.Table.Actor
import Verif.Table.Marks

/-!
# Property C50: the exported tables
-/

namespace Verif.Table

open Verif.Active (Cfg Op run events)

/-- C50, one history: recorded values in order, one row each (one row per field of a dataclass or dictionary), markers on the
row of the value they follow. Partial: histories that begin with a marker or contain an empty dictionary excepted
(counterexamples below). -/
theorem c50_rows_partial {α : Type} (e k : Nat) (n : Name) (isActive : Bool) (h : Hist α) (hp : Proper h) :
    ∃ rows, toTable e k n isActive h = some rows ∧ Table e k n isActive h rows :=
  ⟨_, toTable_eq e k n isActive h hp, table_of rfl⟩

/-- A history with markers: of a state activated at 1 and deactivated at 3. -/
def demoHist : Hist Rat := [(0, .scalar 10), (1, .scalar 10), (1, .marker true), (2, .scalar 13), (3, .scalar 16), (3, .marker false)]

example : Proper demoHist ∧ toTable 7 8 [5] true demoHist = some
    [⟨7, 8, [5], 0, 10, some .inactive⟩, ⟨7, 8, [5], 1, 10, some .activating⟩, ⟨7, 8, [5], 2, 13, some .active⟩,
      ⟨7, 8, [5], 3, 16, some .deactivating⟩] := by
  refine ⟨⟨by simp [demoHist], by simp [demoHist]⟩, by decide +kernel⟩

/-- C50: the table of scalar values has exactly one row for each value recorded. -/
theorem c50_one_row_each {e k : Nat} {n : Name} {isActive : Bool} {h : List (Rat × Rat)} {rows : List (Row Rat)}
    (ht : toTable e k n isActive (h.map fun x => (x.1, Val.scalar x.2)) = some rows) :
    rows.map (fun r => (r.time, r.value)) = h ∧ ∀ r ∈ rows, r.state = n := by
  have hp : Proper (h.map fun x => (x.1, Val.scalar x.2)) := by
    constructor
    · intro t on r hc
      cases h <;> simp at hc
    · intro t l hm
      simp at hm
  obtain ⟨rows', e1, e2⟩ := c50_rows_partial e k n isActive _ hp
  rw [ht] at e1
  obtain rfl := Option.some.inj e1
  have hv := e2.values
  have hi : allItems n (h.map fun x => (x.1, Val.scalar x.2)) = h.map fun x => (n, x.1, x.2) := by
    clear ht hp e1 e2 hv
    induction h with
    | nil => rfl
    | cons x r ih =>
      simp only [List.map_cons, allItems, List.flatMap_cons, items, List.cons_append, List.nil_append, List.cons.injEq, true_and]
      exact ih
  rw [hi] at hv
  constructor
  · have := congrArg (List.map fun x : Name × Rat × Rat => (x.2.1, x.2.2)) hv
    simpa [List.map_map, Function.comp_def] using this
  · intro r hr
    have : (r.state, r.time, r.value) ∈ h.map fun x => (n, x.1, x.2) := by
      rw [← hv]; exact List.mem_map_of_mem (f := fun r : Row Rat => (r.state, r.time, r.value)) hr
    simp only [List.mem_map, Prod.mk.injEq] at this
    obtain ⟨_, _, hn, _⟩ := this
    exact hn.symm

example : toTable 1 2 [3] false ([((0 : Rat), (5 : Rat)), (0, 6), (4, 7)].map fun x => (x.1, Val.scalar x.2)) =
    some [⟨1, 2, [3], 0, 5, none⟩, ⟨1, 2, [3], 0, 6, none⟩, ⟨1, 2, [3], 4, 7, none⟩] := by decide +kernel

/-! ## The histories that active states record -/

theorem histOf_values (h : List (Rat × Active.Entry)) (n : Name) :
    allItems n (h.map conv) = (Active.values h).map fun x => (n, x.1, x.2) := by
  induction h with
  | nil => rfl
  | cons x r ih =>
    obtain ⟨t, e⟩ := x
    simp only [List.map_cons, allItems, List.flatMap_cons] at ih ⊢
    rw [ih]
    cases e <;> simp [conv, items, Active.values]

theorem histOf_proper {h : List (Rat × Active.Entry)} (hm : Marked h) : Proper (h.map conv) := by
  constructor
  · intro t on r hc
    cases h with
    | nil => simp at hc
    | cons x r' =>
      obtain ⟨t', e⟩ := x
      cases e with
      | val v => simp [conv] at hc
      | activating =>
        obtain ⟨p, v, h1⟩ := hm [] t' .activating r' rfl (by simp)
        simp at h1
      | deactivating =>
        obtain ⟨p, v, h1⟩ := hm [] t' .deactivating r' rfl (by simp)
        simp at h1
  · intro t l hc
    simp only [List.mem_map] at hc
    obtain ⟨⟨t', e⟩, _, hx⟩ := hc
    cases e <;> simp [conv] at hx

/-- C50: whatever is done to an actor's active states, the history of each can be exported; every recorded value has a row of
its own, and every marker is shown on the row of a value recorded at that marker's time. -/
theorem c50_active_histories (c : Cfg) (t0 : Rat) (v : Nat → Option Rat) (ops : List Op) (e k n : Nat) :
    let s := (run c (Active.init c t0 v) ops).1
    ∃ rows, toTable e k [n] true (histOf s n) = some rows ∧ Table e k [n] true (histOf s n) rows ∧
      rows.map (fun r => (r.time, r.value)) = Active.values (s.hist n) ∧
      ∀ pre t on post, histOf s n = pre ++ (t, .marker on) :: post →
        ∃ r, rows[(allItems [n] pre).length - 1]? = some r ∧ r.time = t ∧ r.status = some (statusOf on) := by
  intro s
  have hm : MInv c s := MInv.run ops (MInv.init c t0 v) (Active.Lk.init c t0 v)
  obtain ⟨rows, h1, h2⟩ := c50_rows_partial e k [n] true (histOf s n) (histOf_proper (hm.marked n))
  refine ⟨rows, h1, h2, ?_, ?_⟩
  · have hv := h2.values
    rw [histOf, histOf_values] at hv
    have := congrArg (List.map fun x : Name × Rat × Rat => (x.2.1, x.2.2)) hv
    simpa [List.map_map, Function.comp_def] using this
  · intro pre t on post heq
    obtain ⟨pre0, rest, e0, e1, e2⟩ := List.map_eq_append_iff.1 heq
    obtain ⟨x, post0, rfl, e3, e4⟩ := List.map_eq_cons_iff.1 e2
    obtain ⟨t', en⟩ := x
    have ht' : t' = t := congrArg Prod.fst e3
    have hne : ∀ v, en ≠ .val v := by
      rintro v rfl; simp [conv] at e3
    obtain ⟨pre1, w, hw⟩ := hm.marked n pre0 t' en post0 e0 hne
    have hnext : marksNow post = [] := by
      cases post0 with
      | nil => subst e4; rfl
      | cons y post1 =>
        obtain ⟨ty, ey⟩ := y
        subst e4
        cases ey with
        | val z => rfl
        | activating =>
          obtain ⟨p, z, hz⟩ := hm.marked n (pre0 ++ [(t', en)]) ty .activating post1 (by rw [e0]; simp) (by simp)
          have := (List.append_inj' hz (by simp)).2
          simp only [List.cons.injEq, Prod.mk.injEq, and_true] at this
          exact absurd this.2 (hne z)
        | deactivating =>
          obtain ⟨p, z, hz⟩ := hm.marked n (pre0 ++ [(t', en)]) ty .deactivating post1 (by rw [e0]; simp) (by simp)
          have := (List.append_inj' hz (by simp)).2
          simp only [List.cons.injEq, Prod.mk.injEq, and_true] at this
          exact absurd this.2 (hne z)
    have hpre : pre = pre1.map conv ++ [(t', .scalar w)] := by rw [← e1, hw]; simp [conv]
    have hsplit : histOf s n = pre1.map conv ++ (t', Val.scalar w) :: (t, .marker on) :: post := by
      rw [heq, hpre]; simp
    have hst := h2.status (pre1.map conv) (t', .scalar w) ((t, .marker on) :: post) hsplit 0 (by simp [items])
    have hval := congrArg (fun l : List (Name × Rat × Rat) => l[(allItems [n] (pre1.map conv)).length]?) h2.values
    simp only [List.getElem?_map] at hval
    have hlen : (allItems [n] pre).length - 1 = (allItems [n] (pre1.map conv)).length := by
      rw [hpre]; simp [allItems, items]
    have hall : (allItems [n] (histOf s n))[(allItems [n] (pre1.map conv)).length]? = some ([n], t', w) := by
      rw [hsplit]
      simp [allItems, items, List.flatMap_append, List.flatMap_cons]
    rw [hall] at hval
    rw [hlen]
    simp only [Nat.add_zero] at hst
    cases hr : rows[(allItems [n] (pre1.map conv)).length]? with
    | none => rw [hr] at hval; simp at hval
    | some r =>
      rw [hr] at hval hst
      refine ⟨r, rfl, ?_, ?_⟩
      · simp only [Option.map_some, Option.some.injEq, Prod.mk.injEq] at hval
        rw [hval.2.1, ht']
      · simpa [items, marksNow, hnext] using hst

/-- An actor with a linear state that two tasks activate in turn. -/
def demoRun : List Op :=
  [.advance 1, .activate 0 5 (some 3), .advance 2, .deactivate 0 5, .activate 0 6 (some 1), .advance 1, .read 0]

example : toTable 9 9 [0] true (histOf (run Active.demoCfg (Active.init Active.demoCfg 0 Active.demoV) demoRun).1 0) = some
    [⟨9, 9, [0], 0, 10, some .inactive⟩, ⟨9, 9, [0], 1, 10, some .activating⟩, ⟨9, 9, [0], 3, 16, some .deactivating⟩,
      ⟨9, 9, [0], 3, 16, some .activating⟩, ⟨9, 9, [0], 4, 17, some .active⟩] := by decide +kernel

/-- C50: the markers recorded for a linear state are exactly its activations and deactivations, at their times and in their
order. -/
theorem c50_linear_markers (c : Cfg) (t0 : Rat) (v : Nat → Option Rat) (ops : List Op) (n : Nat)
    (hk : c.kind n = some .linear) (hr : c.recording n = true) :
    timedMarks ((run c (Active.init c t0 v) ops).1.hist n) = switches (events n (run c (Active.init c t0 v) ops).2) := by
  have := run_marks hk hr ops (MInv.init c t0 v) (Active.Lk.init c t0 v)
  rw [this]
  have h0 : timedMarks ((Active.init c t0 v).hist n) = [] := by
    simp only [Active.init]
    split
    · split <;> simp [timedMarks]
    · rfl
  rw [h0, List.nil_append]

example : switches (events 0 (run Active.demoCfg (Active.init Active.demoCfg 0 Active.demoV) demoRun).2) =
    [(1, true), (3, false), (3, true)] := by decide +kernel

/-- C50: a shared linear state that stops changing records no marker for it: the exported status remains "active" for ever. -/
theorem c50_shared_stays_active :
    let s := (run Active.demoCfg (Active.init Active.demoCfg 0 Active.demoV)
      [.activate 1 5 (some 3), .advance 2, .deactivate 1 5, .advance 7, .read 1, .assign 1 0]).1
    s.tbs 1 = [] ∧ s.active 1 = none ∧
    toTable 9 9 [1] true (histOf s 1) = some
      [⟨9, 9, [1], 0, 10, some .activating⟩, ⟨9, 9, [1], 2, 16, some .active⟩, ⟨9, 9, [1], 9, 0, some .active⟩] := by
  decide +kernel

/-! ## The table of an actor -/

/-- C50, an actor: the rows of each recorded state are the table of its history, of each key of a state recorded by key the
table of that key's history, of each monitored resource the table of its quantities; skipped location states have no rows,
and there are no rows of anything else. Partial: under `Ready` (counterexamples below). -/
theorem c50_actor_partial {α : Type} (a : Actor α) (skip static : Bool) (hr : Ready a skip) :
    ∃ rows res, actorRows a skip static = some (rows, res) ∧
      (∀ r ∈ rows, r.entity = a.name ∧ r.kind = a.kind ∧ ∃ d ∈ a.defs, r.state.take 1 = [d.name]) ∧
      ∀ d ∈ a.defs, StateOk a skip static d (rowsFor [d.name] rows) res :=
  defsRows_ok hr static a.defs (fun _ h => h) hr.names

/-- An actor with a recorded scalar state 1, a state 2 recorded by key, a monitored store 3, a location state 4 and an
unrecorded state 5. -/
def demoActor : Actor Rat where
  name := 7
  kind := 8
  defs := [⟨1, false, true⟩, ⟨2, false, false⟩, ⟨3, false, false⟩, ⟨4, true, true⟩, ⟨5, false, false⟩]
  cur := fun n => match n with
    | 2 => some ⟨0, some [10, 11], none, some [(10, 1), (11, 2)]⟩
    | 3 => some ⟨0, none, some (33, [(0, .scalar 0), (2, .scalar 1)]), none⟩
    | _ => some ⟨6, none, none, none⟩
  hist := [([1], demoHist), ([2, 10], [(0, .scalar 1)]), ([2, 11], [(0, .scalar 0), (5, .scalar 2)]), ([4], [])]

theorem demoActor_ready : Ready demoActor true := by
  refine ⟨by decide, ?_, ?_, ?_, ?_⟩
  · intro d _ _
    show demoActor.cur d.name ≠ none
    simp only [demoActor]
    split <;> simp
  · intro n h hh
    have := Dict.mem_of_get? hh
    simp only [demoActor, List.mem_cons, Prod.mk.injEq, List.not_mem_nil, or_false] at this
    rcases this with ⟨_, rfl⟩ | ⟨_, rfl⟩ | ⟨_, rfl⟩ | ⟨_, rfl⟩
    · exact ⟨by simp [demoHist], by simp [demoHist]⟩
    · exact ⟨by simp, by simp⟩
    · exact ⟨by simp, by simp⟩
    · exact ⟨by simp, by simp⟩
  · intro d hd c hc hn hp
    simp only [demoActor, List.mem_cons, List.not_mem_nil, or_false] at hd
    rcases hd with rfl | rfl | rfl | rfl | rfl
    · exact absurd hn (by decide)
    · obtain rfl := Option.some.inj hc
      exact ⟨_, rfl, by decide, by decide⟩
    · exact absurd ((prefilled_iff demoActor _).2 hp) (by decide)
    · exact absurd hn (by decide)
    · exact absurd ((prefilled_iff demoActor _).2 hp) (by decide)
  · intro d hd c i q hc hq
    simp only [demoActor, List.mem_cons, List.not_mem_nil, or_false] at hd
    rcases hd with rfl | rfl | rfl | rfl | rfl <;> obtain rfl := Option.some.inj hc <;> simp at hq
    obtain ⟨rfl, rfl⟩ := hq
    exact ⟨by simp, by simp⟩

example : Ready demoActor true ∧
    (actorRows demoActor true false).map (fun p => (p.1.map fun r => (r.state, r.time, r.value), p.2)) = some
      ([([1], 0, 10), ([1], 1, 10), ([1], 2, 13), ([1], 3, 16), ([2, 10], 0, 1), ([2, 11], 0, 0), ([2, 11], 5, 2), ([3], 0, 0),
        ([3], 2, 1)], [33]) := ⟨demoActor_ready, by decide +kernel⟩

/-- C50, all actors: the table is that of each actor in turn, followed by the quantities of each monitored resource that is
no actor's, and of no others. -/
theorem c50_table_partial {α : Type} (actors : List (Actor α)) (mons : List (Mon α)) (skip static : Bool)
    (hr : ∀ a ∈ actors, Ready a skip) :
    ∃ parts, List.Forall₂ (fun a p => actorRows a skip static = some p ∧
        (∀ r ∈ p.1, r.entity = a.name ∧ r.kind = a.kind ∧ ∃ d ∈ a.defs, r.state.take 1 = [d.name]) ∧
        ∀ d ∈ a.defs, StateOk a skip static d (rowsFor [d.name] p.1) p.2) actors parts ∧
      createTable actors mons skip static = some (parts.flatMap (·.1) ++
        (mons.filter fun m => decide (∀ p ∈ parts, m.id ∉ p.2)).flatMap fun m =>
          m.quantities.map fun q => ⟨m.name, m.kind, resource, q.1, q.2, none⟩) := by
  obtain ⟨parts, h1, h2⟩ := go_some skip static actors fun a ha => by
    obtain ⟨rows, res, e, _⟩ := c50_actor_partial a skip static (hr a ha)
    rw [e]; simp
  refine ⟨parts, ?_, ?_⟩
  · rw [List.forall₂_iff_get] at h1 ⊢
    refine ⟨h1.1, fun i hi hj => ?_⟩
    have := h1.2 i hi hj
    obtain ⟨rows, res, e1, e2⟩ := c50_actor_partial (actors.get ⟨i, hi⟩) skip static (hr _ (List.get_mem ..))
    rw [this] at e1
    refine ⟨this, ?_⟩
    rw [Option.some.inj e1]
    exact e2
  · simp only [createTable, h2, Option.some.injEq, List.append_cancel_left_eq]
    congr 1
    apply List.filter_congr
    intro m _
    by_cases hm : ∃ p ∈ parts, m.id ∈ p.2
    · have h3 : m.id ∈ parts.flatMap (·.2) := List.mem_flatMap.2 hm
      have h4 : ¬ ∀ p ∈ parts, m.id ∉ p.2 := fun h => by obtain ⟨p, hp, hx⟩ := hm; exact h p hp hx
      rw [decide_eq_true h3, decide_eq_false h4]; rfl
    · have h3 : ¬ m.id ∈ parts.flatMap (·.2) := fun h => hm (List.mem_flatMap.1 h)
      have h4 : ∀ p ∈ parts, m.id ∉ p.2 := fun p hp hx => hm ⟨p, hp, hx⟩
      rw [decide_eq_false h3, decide_eq_true h4]; rfl

example : (∀ a ∈ [demoActor], Ready a true) ∧
    (createTable [demoActor] [⟨33, 3, 4, [(0, 0), (2, 1)]⟩, ⟨34, 5, 4, [(0, 9)]⟩] true false).map (fun l => (l.length, l.getLast?)) =
      some (10, some ⟨5, 4, [], 0, 9, none⟩) :=
  ⟨by simpa using demoActor_ready, by decide +kernel⟩

/-! ## Where the table loses something or cannot be made -/

/-- An actor with the one state 1. -/
def single (c : Option (Cur Rat)) (h : Dict Name (Hist Rat)) : Actor Rat := ⟨7, 8, [⟨1, false, false⟩], fun _ => c, h⟩

/-- C50: the table cannot be made (a) of a history that begins with a marker; (b) of an actor with a state that has never been
given a value; (c) of a state recorded by key after a key was added to the dictionary itself; (d) and a recorded empty
dictionary followed by a marker changes the row of an earlier time. -/
theorem c50_failures :
    toTable 7 8 [1] true ([(0, .marker true), (1, .scalar 2)] : Hist Rat) = none ∧
    createTable [single none []] [] true false = none ∧
    createTable [single (some ⟨0, some [10, 11], none, none⟩) [([1, 10], [(0, .scalar 1)])]] [] true false = none ∧
    toTable 7 8 [1] true ([(0, .fields [(5, 1)]), (3, .fields []), (3, .marker true)] : Hist Rat) =
      some [⟨7, 8, [1, 5], 0, 1, some .activating⟩] := by decide +kernel

/-- C50: (a) the history of a key deleted from the dictionary itself, and (b) what recording functions recorded, are not in
the table. -/
theorem c50_missing :
    createTable [single (some ⟨0, some [10], none, none⟩) [([1, 10], [(0, .scalar 1)]), ([1, 11], [(0, .scalar 2)])]] [] true false =
      some [⟨7, 8, [1, 10], 0, 1, none⟩] ∧
    createTable [single (some ⟨0, none, none, none⟩) [([2], [(0, .scalar 1)])]] [] true false = some [] := by decide +kernel

/-! ## Locations -/

/-- C50, locations: the rows are, actor by actor and state by state, the tables of the recorded locations. Partial: there is an
actor, and no history begins with a marker. The columns are named after the last actor only. -/
theorem c50_locations_partial (actors : List LActor) (hp : ∀ a ∈ actors, ∀ y ∈ a.hists, LProper y.2.2) (a : LActor)
    (hl : actors.getLast? = some a) :
    ∃ parts : List (List (List LRow)), List.Forall₂ (fun (a : LActor) ps =>
        List.Forall₂ (fun y p => Table a.name a.kind [y.1] y.2.1 (y.2.2.map triple) (p.map LRow.row)) a.hists ps) actors parts ∧
      createLocationTable actors = some ((parts.map List.flatten).flatten, if a.hists.any fun y => geodetic y.2.2 then .lla else .xyz) := by
  obtain ⟨parts, h1, h2⟩ := locTable_ok actors [] none hp
  rw [hl] at h2
  exact ⟨parts, h1, by simpa [createLocationTable] using h2⟩

/-- A mover with a location recorded. -/
def mover (h : List (Rat × LVal)) : LActor := ⟨7, 8, [(1, true, h)]⟩

example : LProper [(0, .lla 1 2 3), (0, .marker true), (4, .lla 2 2 3), (4, .marker false)] ∧
    createLocationTable [mover [(0, .lla 1 2 3), (0, .marker true), (4, .lla 2 2 3), (4, .marker false)]] = some
      ([⟨7, 8, 1, 0, 1, 2, 3, some .activating⟩, ⟨7, 8, 1, 4, 2, 2, 3, some .deactivating⟩], .lla) :=
  ⟨by simp [LProper], by decide +kernel⟩

/-- C50: with no actors the location table raises; and if the last actor has no recorded locations, latitudes and longitudes of
the others stand under the names X, Y, Z. -/
theorem c50_columns :
    createLocationTable [] = none ∧
    createLocationTable [mover [(0, .lla 1 2 3)], ⟨9, 8, []⟩] = some ([⟨7, 8, 1, 0, 1, 2, 3, some .inactive⟩], .xyz) := by
  decide +kernel

end Verif.Table
