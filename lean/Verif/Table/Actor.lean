import Verif.Table.Lemmas
import Mathlib.Data.List.Forall2
import Mathlib.Data.List.Nodup

/-!
# The rows of an actor and of all actors
-/

namespace Verif.Table

variable {α : Type}

/-- The rows of a state, or of a key of a state. -/
def rowsFor (p : Name) (rows : List (Row α)) : List (Row α) := rows.filter fun r => decide (r.state.take p.length = p)

/-- Something is recorded for a key of state `n`. -/
def Keyed (a : Actor α) (n : Nat) : Prop := ∃ x r h, Dict.get? a.hist (n :: x :: r) = some h

/-- The states of an actor can be exported: each has a value, the recorded histories begin with values and contain no empty
dictionaries, every key of a state recorded by key has a history. -/
structure Ready (a : Actor α) (skip : Bool) : Prop where
  names : (a.defs.map (·.name)).Nodup
  set : ∀ d ∈ a.defs, ¬ (skip = true ∧ d.location = true) → a.cur d.name ≠ none
  proper : ∀ n h, Dict.get? a.hist n = some h → Proper h
  keys : ∀ d ∈ a.defs, ∀ c, a.cur d.name = some c → Dict.get? a.hist [d.name] = none → Keyed a d.name →
    ∃ ks, c.keys = some ks ∧ ks.Nodup ∧ ∀ x ∈ ks, Dict.get? a.hist [d.name, x] ≠ none
  quantities : ∀ d ∈ a.defs, ∀ c i q, a.cur d.name = some c → c.quantities = some (i, q) → Proper q

theorem Table.state {e k : Nat} {n : Name} {b : Bool} {h : Hist α} {rows : List (Row α)} (ht : Table e k n b h rows) :
    ∀ r ∈ rows, r.state.take n.length = n := by
  intro r hr
  have h1 : (r.state, r.time, r.value) ∈ allItems n h := by
    rw [← ht.values]
    exact List.mem_map_of_mem (f := fun r : Row α => (r.state, r.time, r.value)) hr
  obtain ⟨x, _, hx⟩ := List.mem_flatMap.1 h1
  obtain ⟨t, v⟩ := x
  cases v with
  | scalar v => simp [items] at hx; simp [hx.1]
  | fields l =>
    simp only [items, List.mem_map, Prod.mk.injEq] at hx
    obtain ⟨y, _, hy, _⟩ := hx
    simp [← hy]
  | marker on => simp [items] at hx

theorem take_one {n : Nat} : ∀ {l : Name}, l.take 2 = [n, m] → l.take 1 = [n] := by
  intro l h
  cases l with
  | nil => simp at h
  | cons a r => simp at h; simp [h.1]

theorem rowsFor_all {p : Name} {rows : List (Row α)} (h : ∀ r ∈ rows, r.state.take p.length = p) : rowsFor p rows = rows := by
  unfold rowsFor
  rw [List.filter_eq_self]
  intro r hr
  simpa using h r hr

theorem rowsFor_none {p : Name} {rows : List (Row α)} (h : ∀ r ∈ rows, r.state.take p.length ≠ p) : rowsFor p rows = [] := by
  unfold rowsFor
  rw [List.filter_eq_nil_iff]
  intro r hr
  simpa using h r hr

theorem rowsFor_append (p : Name) (a b : List (Row α)) : rowsFor p (a ++ b) = rowsFor p a ++ rowsFor p b := List.filter_append ..

theorem keyRows_ok {a : Actor α} (hp : ∀ n h, Dict.get? a.hist n = some h → Proper h) (d : Def) : ∀ (ks : List Nat), ks.Nodup →
    (∀ x ∈ ks, Dict.get? a.hist [d.name, x] ≠ none) →
    ∃ rows, keyRows a d ks = some rows ∧ (∀ r ∈ rows, r.entity = a.name ∧ r.kind = a.kind ∧ ∃ x ∈ ks, r.state.take 2 = [d.name, x]) ∧
      ∀ x ∈ ks, ∀ h, Dict.get? a.hist [d.name, x] = some h →
        Table a.name a.kind [d.name, x] d.active h (rowsFor [d.name, x] rows) := by
  intro ks
  induction ks with
  | nil => intro _ _; exact ⟨[], rfl, by simp, by simp⟩
  | cons x r ih =>
    intro hnd hk
    obtain ⟨hx, hnd⟩ := List.nodup_cons.1 hnd
    obtain ⟨rest, e1, e2, e3⟩ := ih hnd fun y hy => hk y (List.mem_cons_of_mem _ hy)
    cases hh : Dict.get? a.hist [d.name, x] with
    | none => exact absurd hh (hk x List.mem_cons_self)
    | some h =>
      have ht := toTable_eq a.name a.kind [d.name, x] d.active h (hp _ h hh)
      have htab := table_of (e := a.name) (k := a.kind) (n := [d.name, x]) (a := d.active) (h := h) rfl
      generalize rowsOf a.name a.kind [d.name, x] (if d.active then some .inactive else none) h = rows at ht htab
      have hst := htab.state
      refine ⟨rows ++ rest, by simp only [keyRows, hh, ht, e1], ?_, ?_⟩
      · intro y hy
        rcases List.mem_append.1 hy with hy | hy
        · exact ⟨(htab.who y hy).1, (htab.who y hy).2, x, List.mem_cons_self, hst y hy⟩
        · obtain ⟨h1, h2, z, hz, h3⟩ := e2 y hy
          exact ⟨h1, h2, z, List.mem_cons_of_mem _ hz, h3⟩
      · intro y hy h' hh'
        rw [rowsFor_append]
        rcases List.mem_cons.1 hy with rfl | hy
        · rw [hh] at hh'
          obtain rfl := Option.some.inj hh'
          rw [rowsFor_all hst, rowsFor_none, List.append_nil]
          · exact htab
          · intro z hz hc
            obtain ⟨_, _, w, hw, h3⟩ := e2 z hz
            have : [d.name, w] = [d.name, y] := h3.symm.trans hc
            simp at this
            exact hx (this ▸ hw)
        · rw [rowsFor_none (rows := rows), List.nil_append]
          · exact e3 y hy h' hh'
          · intro z hz hc
            have : [d.name, x] = [d.name, y] := (hst z hz).symm.trans hc
            simp at this
            exact hx (this ▸ hy)

/-- What the rows of one state must be. -/
structure StateOk (a : Actor α) (skip static : Bool) (d : Def) (rows : List (Row α)) (res : List Nat) : Prop where
  who : ∀ r ∈ rows, r.entity = a.name ∧ r.kind = a.kind ∧ r.state.take 1 = [d.name]
  skipped : skip = true → d.location = true → rows = []
  recorded : ¬ (skip = true ∧ d.location = true) → ∀ h, Dict.get? a.hist [d.name] = some h → Table a.name a.kind [d.name] d.active h rows
  keyed : ¬ (skip = true ∧ d.location = true) → Dict.get? a.hist [d.name] = none → Keyed a d.name →
    ∀ c ks x h, a.cur d.name = some c → c.keys = some ks → x ∈ ks → Dict.get? a.hist [d.name, x] = some h →
      Table a.name a.kind [d.name, x] d.active h (rowsFor [d.name, x] rows)
  resource : ¬ (skip = true ∧ d.location = true) → Dict.get? a.hist [d.name] = none → ¬ Keyed a d.name →
    ∀ c i q, a.cur d.name = some c → c.quantities = some (i, q) → Table a.name a.kind [d.name] false q rows ∧ i ∈ res
  other : ¬ (skip = true ∧ d.location = true) → Dict.get? a.hist [d.name] = none → ¬ Keyed a d.name →
    ∀ c, a.cur d.name = some c → c.quantities = none → static = false → rows = []

theorem prefilled_iff (a : Actor α) (d : Def) : prefilled a d = true ↔ Keyed a d.name := by
  unfold prefilled Keyed
  rw [List.any_eq_true]
  constructor
  · rintro ⟨⟨n, h⟩, hm, hx⟩
    match n, hm, hx with
    | x :: y :: r, hm, hx =>
      obtain rfl : x = d.name := by simpa using hx
      cases hg : Dict.get? a.hist (d.name :: y :: r) with
      | none => exact absurd (List.mem_map_of_mem (f := Prod.fst) hm) ((Dict.get?_eq_none_iff ..).1 hg)
      | some h' => exact ⟨y, r, h', hg⟩
  · rintro ⟨x, r, h, hg⟩
    exact ⟨(d.name :: x :: r, h), Dict.mem_of_get? hg, by simp⟩

theorem stateRows_ok {a : Actor α} {skip : Bool} (hr : Ready a skip) (static : Bool) (d : Def) (hd : d ∈ a.defs) :
    ∃ rows res, stateRows a skip static d = some (rows, res) ∧ StateOk a skip static d rows res := by
  by_cases hs : skip = true ∧ d.location = true
  · refine ⟨[], [], by simp [stateRows, hs.1, hs.2], ?_⟩
    exact ⟨by simp, fun _ _ => rfl, fun h => absurd hs h, fun h => absurd hs h, fun h => absurd hs h, fun h => absurd hs h⟩
  · have hs' : (skip && d.location) = false := by
      cases hb : skip && d.location with
      | false => rfl
      | true => exact absurd (by simpa using hb) hs
    cases hc : a.cur d.name with
    | none => exact absurd hc (hr.set d hd hs)
    | some c =>
      cases hh : Dict.get? a.hist [d.name] with
      | some h =>
        have ht := toTable_eq a.name a.kind [d.name] d.active h (hr.proper _ h hh)
        have htab := table_of (e := a.name) (k := a.kind) (n := [d.name]) (a := d.active) (h := h) rfl
        generalize rowsOf a.name a.kind [d.name] (if d.active then some .inactive else none) h = rows at ht htab
        refine ⟨rows, [], by simp [stateRows, hs', hc, hh, ht], ?_⟩
        exact ⟨fun r hr => ⟨(htab.who r hr).1, (htab.who r hr).2, htab.state r hr⟩, fun h1 h2 => absurd ⟨h1, h2⟩ hs,
          fun _ h' e => by rw [hh] at e; obtain rfl := Option.some.inj e; exact htab,
          fun _ e => by simp [hh] at e, fun _ e => by simp [hh] at e, fun _ e => by simp [hh] at e⟩
      | none =>
        cases hpf : prefilled a d with
        | true =>
          have hkd := (prefilled_iff a d).1 hpf
          obtain ⟨ks, e1, e2, e3⟩ := hr.keys d hd c hc hh hkd
          obtain ⟨rows, f1, f2, f3⟩ := keyRows_ok hr.proper d ks e2 e3
          refine ⟨rows, [], by simp [stateRows, hs', hc, hh, hpf, e1, f1], ?_⟩
          exact ⟨fun r hr => ⟨(f2 r hr).1, (f2 r hr).2.1, by obtain ⟨_, _, x, _, h3⟩ := f2 r hr; exact take_one h3⟩,
            fun h1 h2 => absurd ⟨h1, h2⟩ hs, fun _ h' e => by simp [hh] at e,
            fun _ _ _ c' ks' x h' g1 g2 g3 g4 => by
              rw [hc] at g1
              obtain rfl := Option.some.inj g1
              rw [e1] at g2
              obtain rfl := Option.some.inj g2
              exact f3 x g3 h' g4,
            fun _ _ e => absurd hkd e, fun _ _ e => absurd hkd e⟩
        | false =>
          have hkd : ¬ Keyed a d.name := fun h => by rw [(prefilled_iff a d).2 h] at hpf; simp at hpf
          cases hq : c.quantities with
          | some iq =>
            obtain ⟨i, q⟩ := iq
            have ht := toTable_eq a.name a.kind [d.name] false q (hr.quantities d hd c i q hc hq)
            have htab := table_of (e := a.name) (k := a.kind) (n := [d.name]) (a := false) (h := q) rfl
            generalize rowsOf a.name a.kind [d.name] (if false then some .inactive else none) q = rows at ht htab
            refine ⟨rows, [i], by simp [stateRows, hs', hc, hh, hpf, hq, ht], ?_⟩
            refine ⟨fun r hr => ⟨(htab.who r hr).1, (htab.who r hr).2, htab.state r hr⟩, fun h1 h2 => absurd ⟨h1, h2⟩ hs,
              fun _ h' e => by simp [hh] at e, fun _ _ e => absurd e hkd, ?_, ?_⟩
            · intro _ _ _ c' i' q' g1 g2
              rw [hc] at g1
              obtain rfl := Option.some.inj g1
              rw [hq] at g2
              simp only [Option.some.injEq, Prod.mk.injEq] at g2
              obtain ⟨rfl, rfl⟩ := g2
              exact ⟨htab, by simp⟩
            · intro _ _ _ c' g1 g2
              rw [hc] at g1
              obtain rfl := Option.some.inj g1
              simp [hq] at g2
          | none =>
            have hres : ∀ (P : Prop) c' i q, a.cur d.name = some c' → c'.quantities = some (i, q) → P := by
              intro P c' i q g1 g2
              rw [hc] at g1
              obtain rfl := Option.some.inj g1
              simp [hq] at g2
            cases hst : static with
            | false =>
              refine ⟨[], [], by simp [stateRows, hs', hc, hh, hpf, hq], ?_⟩
              exact ⟨by simp, fun _ _ => rfl, fun _ h' e => by simp [hh] at e, fun _ _ e => absurd e hkd,
                fun _ _ _ c' i q g1 g2 => hres _ c' i q g1 g2, fun _ _ _ _ _ _ _ => rfl⟩
            | true =>
              cases hpx : c.proxy with
              | some l =>
                refine ⟨_, _, by simp only [stateRows, hs', hc, hh, hpf, hq, hpx]; rfl, ?_⟩
                refine ⟨?_, fun h1 h2 => absurd ⟨h1, h2⟩ hs, fun _ h' e => by simp [hh] at e, fun _ _ e => absurd e hkd,
                  fun _ _ _ c' i q g1 g2 => hres _ c' i q g1 g2, fun _ _ _ _ _ _ e => by simp at e⟩
                intro r hr
                obtain ⟨x, _, rfl⟩ := List.mem_map.1 hr
                exact ⟨rfl, rfl, rfl⟩
              | none =>
                refine ⟨_, _, by simp only [stateRows, hs', hc, hh, hpf, hq, hpx]; rfl, ?_⟩
                refine ⟨?_, fun h1 h2 => absurd ⟨h1, h2⟩ hs, fun _ h' e => by simp [hh] at e, fun _ _ e => absurd e hkd,
                  fun _ _ _ c' i q g1 g2 => hres _ c' i q g1 g2, fun _ _ _ _ _ _ e => by simp at e⟩
                intro r hr
                obtain rfl := List.mem_singleton.1 hr
                exact ⟨rfl, rfl, rfl⟩

theorem defsRows_ok {a : Actor α} {skip : Bool} (hr : Ready a skip) (static : Bool) : ∀ (ds : List Def), (∀ d ∈ ds, d ∈ a.defs) →
    (ds.map (·.name)).Nodup →
    ∃ rows res, defsRows a skip static ds = some (rows, res) ∧
      (∀ r ∈ rows, r.entity = a.name ∧ r.kind = a.kind ∧ ∃ d ∈ ds, r.state.take 1 = [d.name]) ∧
      ∀ d ∈ ds, StateOk a skip static d (rowsFor [d.name] rows) res := by
  intro ds
  induction ds with
  | nil => intro _ _; exact ⟨[], [], rfl, by simp, by simp⟩
  | cons d r ih =>
    intro hsub hnd
    obtain ⟨hx, hnd⟩ := List.nodup_cons.1 hnd
    obtain ⟨rest, res', e1, e2, e3⟩ := ih (fun y hy => hsub y (List.mem_cons_of_mem _ hy)) hnd
    obtain ⟨rows, res, f1, f2⟩ := stateRows_ok hr static d (hsub d List.mem_cons_self)
    refine ⟨rows ++ rest, res ++ res', by simp only [defsRows, f1, e1], ?_, ?_⟩
    · intro y hy
      rcases List.mem_append.1 hy with hy | hy
      · exact ⟨(f2.who y hy).1, (f2.who y hy).2.1, d, List.mem_cons_self, (f2.who y hy).2.2⟩
      · obtain ⟨h1, h2, d', hd', h3⟩ := e2 y hy
        exact ⟨h1, h2, d', List.mem_cons_of_mem _ hd', h3⟩
    · intro d' hd'
      rw [rowsFor_append]
      rcases List.mem_cons.1 hd' with rfl | hd'
      · rw [rowsFor_all (p := [d'.name]) (rows := rows) fun y hy => (f2.who y hy).2.2, rowsFor_none, List.append_nil]
        · exact { f2 with resource := fun h1 h2 h3 c i q h4 h5 =>
            ⟨(f2.resource h1 h2 h3 c i q h4 h5).1, List.mem_append_left _ (f2.resource h1 h2 h3 c i q h4 h5).2⟩ }
        · intro z hz hc
          obtain ⟨_, _, w, hw, h3⟩ := e2 z hz
          have : [w.name] = [d'.name] := h3.symm.trans hc
          simp only [List.cons.injEq, and_true] at this
          exact hx (List.mem_map.2 ⟨w, hw, this⟩)
      · rw [rowsFor_none (rows := rows), List.nil_append]
        · have g := e3 d' hd'
          exact { g with resource := fun h1 h2 h3 c i q h4 h5 =>
            ⟨(g.resource h1 h2 h3 c i q h4 h5).1, List.mem_append_right _ (g.resource h1 h2 h3 c i q h4 h5).2⟩ }
        · intro z hz hc
          have : [d.name] = [d'.name] := (f2.who z hz).2.2.symm.trans hc
          simp only [List.cons.injEq, and_true] at this
          exact hx (List.mem_map.2 ⟨d', hd', this.symm⟩)

/-! ## All actors -/

theorem go_some (skip static : Bool) : ∀ (actors : List (Actor α)), (∀ a ∈ actors, actorRows a skip static ≠ none) →
    ∃ parts, List.Forall₂ (fun a p => actorRows a skip static = some p) actors parts ∧
      createTable.go skip static actors = some (parts.flatMap (·.1), parts.flatMap (·.2)) := by
  intro actors
  induction actors with
  | nil => intro _; exact ⟨[], .nil, rfl⟩
  | cons a r ih =>
    intro h
    obtain ⟨parts, h1, h2⟩ := ih fun x hx => h x (List.mem_cons_of_mem _ hx)
    cases ha : actorRows a skip static with
    | none => exact absurd ha (h a List.mem_cons_self)
    | some p =>
      obtain ⟨rows, res⟩ := p
      exact ⟨(rows, res) :: parts, .cons ha h1, by simp only [createTable.go, ha, h2, List.flatMap_cons]⟩

/-! ## Locations -/

/-- A recorded location as a triple. -/
def triple (x : Rat × LVal) : Rat × Val (Rat × Rat × Rat) :=
  (x.1, match x.2 with
    | .xyz a b c => .scalar (a, b, c)
    | .lla a b c => .scalar (a, b, c)
    | .marker on => .marker on)

/-- A row of the location table as a row of the other table. -/
def LRow.row (r : LRow) : Row (Rat × Rat × Rat) := ⟨r.entity, r.kind, [r.state], r.time, (r.a, r.b, r.c), r.status⟩

theorem locLoop_loop (e k n : Nat) (h : List (Rat × LVal)) : ∀ (data : List LRow) (av : Option Status) (x : Bool),
    (locLoop e k n h data av x).map (fun p => p.1.map LRow.row) = loop e k [n] (h.map triple) (data.map LRow.row) av ∧
    ∀ p, locLoop e k n h data av x = some p → p.2 = (x && !(h.any fun y => match y.2 with | .lla .. => true | _ => false)) := by
  induction h with
  | nil => intro data av x; simp [locLoop, loop]
  | cons y r ih =>
    intro data av x
    obtain ⟨t, v⟩ := y
    cases v with
    | marker on =>
      simp only [locLoop, List.map_cons, triple, loop, List.getLast?_map]
      cases hl : data.getLast? with
      | none => simp
      | some row =>
        simp only [Option.map_some]
        have := ih (data.dropLast ++ [{ row with status := some (statusOf on) }]) (some (if on then .active else .inactive)) x
        refine ⟨?_, ?_⟩
        · rw [this.1]; simp [List.map_dropLast, LRow.row]
        · intro p hp; rw [this.2 p hp]; simp
    | lla a b c =>
      have := ih (data ++ [⟨e, k, n, t, a, b, c, av⟩]) av false
      simp only [locLoop, List.map_cons, triple, loop]
      refine ⟨?_, ?_⟩
      · rw [this.1]; simp [LRow.row]
      · intro p hp; rw [this.2 p hp]; simp
    | xyz a b c =>
      have := ih (data ++ [⟨e, k, n, t, a, b, c, av⟩]) av x
      simp only [locLoop, List.map_cons, triple, loop]
      refine ⟨?_, ?_⟩
      · rw [this.1]; simp [LRow.row]
      · intro p hp; rw [this.2 p hp]; simp

/-- A recorded location history begins with a location. -/
def LProper (h : List (Rat × LVal)) : Prop := ∀ t on r, h ≠ (t, .marker on) :: r

theorem LProper.proper {h : List (Rat × LVal)} (hp : LProper h) : Proper (h.map triple) := by
  constructor
  · intro t on r hc
    cases h with
    | nil => simp at hc
    | cons x r' =>
      obtain ⟨t', v⟩ := x
      cases v with
      | marker on' => exact hp t' on' r' rfl
      | xyz a b c => simp [triple] at hc
      | lla a b c => simp [triple] at hc
  · intro t l hm
    simp only [List.mem_map] at hm
    obtain ⟨⟨t', v⟩, _, hx⟩ := hm
    cases v <;> simp [triple] at hx

/-- Is a geodetic location recorded? -/
def geodetic (h : List (Rat × LVal)) : Bool := h.any fun y => match y.2 with | .lla .. => true | _ => false

theorem markLast_nil' {α : Type} (a : List (Row α)) : markLast a none = a := by simp [markLast]

theorem locLoop_ok (e k n : Nat) (h : List (Rat × LVal)) (data : List LRow) (av : Option Status) (x : Bool) (hp : LProper h) :
    ∃ rows, locLoop e k n h data av x = some (data ++ rows, x && !geodetic h) ∧
      rows.map LRow.row = rowsOf e k [n] av (h.map triple) := by
  obtain ⟨h1, h2⟩ := locLoop_loop e k n h data av x
  have hm : marksNow (h.map triple) = [] := by
    cases h with
    | nil => rfl
    | cons y r =>
      obtain ⟨t, v⟩ := y
      cases v with
      | marker on => exact absurd rfl (hp t on r)
      | xyz a b c => rfl
      | lla a b c => rfl
  rw [loop_eq e k [n] (h.map triple) _ _ hp.proper.2 (by intro hc; exact absurd hm hc), hm] at h1
  cases hq : locLoop e k n h data av x with
  | none => rw [hq] at h1; simp at h1
  | some p =>
    obtain ⟨d', x'⟩ := p
    rw [hq] at h1
    have h2p := h2 _ hq
    simp only [Option.map_some, Option.some.injEq, List.getLast?_nil, markLast_nil'] at h1
    obtain ⟨a, b, rfl, e1, e2⟩ := List.map_eq_append_iff.1 h1
    have : a = data := by
      refine List.map_injective_iff.2 ?_ e1
      intro r r' hr
      cases r; cases r'
      simp only [LRow.row, Row.mk.injEq, List.cons.injEq, Prod.mk.injEq] at hr
      simp_all
    subst this
    exact ⟨b, by rw [show x' = _ from h2p]; rfl, e2⟩

theorem locActor_ok (a : LActor) : ∀ (hs : List (Nat × Bool × List (Rat × LVal))) (data : List LRow) (x : Bool),
    (∀ y ∈ hs, LProper y.2.2) →
    ∃ parts, locActor a hs data x = some (data ++ parts.flatten, if x && !(hs.any fun y => geodetic y.2.2) then .xyz else .lla) ∧
      List.Forall₂ (fun y p => Table a.name a.kind [y.1] y.2.1 (y.2.2.map triple) (p.map LRow.row)) hs parts := by
  intro hs
  induction hs with
  | nil => intro data x _; exact ⟨[], by simp [locActor], .nil⟩
  | cons y r ih =>
    intro data x hp
    obtain ⟨n, act, h⟩ := y
    obtain ⟨rows, e1, e2⟩ := locLoop_ok a.name a.kind n h data (if act then some .inactive else none) x (hp _ List.mem_cons_self)
    obtain ⟨parts, f1, f2⟩ := ih (data ++ rows) (x && !geodetic h) fun z hz => hp z (List.mem_cons_of_mem _ hz)
    refine ⟨rows :: parts, ?_, .cons (table_of e2) f2⟩
    simp only [locActor, e1, f1, List.flatten_cons, List.append_assoc, List.any_cons]
    simp only [Bool.not_or, Bool.and_assoc]

theorem locTable_ok : ∀ (as : List LActor) (data : List LRow) (c : Option Cols),
    (∀ a ∈ as, ∀ y ∈ a.hists, LProper y.2.2) →
    ∃ parts : List (List (List LRow)), List.Forall₂ (fun (a : LActor) ps =>
        List.Forall₂ (fun y p => Table a.name a.kind [y.1] y.2.1 (y.2.2.map triple) (p.map LRow.row)) a.hists ps) as parts ∧
      locTable as data c =
        match as.getLast? with
        | none => c.map fun c => (data, c)
        | some a => some (data ++ (parts.map List.flatten).flatten, if a.hists.any fun y => geodetic y.2.2 then .lla else .xyz) := by
  intro as
  induction as with
  | nil => intro data c _; exact ⟨[], .nil, by cases c <;> rfl⟩
  | cons a r ih =>
    intro data c hp
    obtain ⟨ps, e1, e2⟩ := locActor_ok a a.hists [] true fun y hy => hp a List.mem_cons_self y hy
    simp only [List.nil_append, Bool.true_and] at e1
    obtain ⟨parts, f1, f2⟩ := ih (data ++ ps.flatten) (some (if !(a.hists.any fun y => geodetic y.2.2) then .xyz else .lla))
      fun b hb => hp b (List.mem_cons_of_mem _ hb)
    refine ⟨ps :: parts, .cons e2 f1, ?_⟩
    rw [locTable, e1]
    simp only
    rw [f2]
    cases hl : r.getLast? with
    | none =>
      have : r = [] := List.getLast?_eq_none_iff.1 hl
      subst this
      cases f1
      cases hg : (a.hists.any fun y => geodetic y.2.2) <;> simp [hg]
    | some b =>
      have : (a :: r).getLast? = some b := by
        cases r with
        | nil => simp at hl
        | cons z r' => rw [List.getLast?_cons_cons]; exact hl
      rw [this]
      simp

end Verif.Table
