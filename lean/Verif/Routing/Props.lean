import Verif.Routing.Search

/-!
# C36, C37: routing
-/

namespace Verif.Routing

/-- Sets are only reordered. -/
def Reorders (ord : List Nat → List Nat) : Prop := ∀ l, (ord l).Perm l

theorem get_without {ord : List Nat → List Nat} (net : Net) (ign : List Nat) (a : Nat) :
    Dict.get? (without ord net ign) a =
      if a ∈ ign then none else (net.get? a).map fun ns => ord (ns.filter fun x => !decide (x ∈ ign)) := by
  unfold without
  induction net with
  | nil => simp
  | cons e r ih =>
    rw [List.filter_cons, Dict.get?_cons]
    by_cases he : e.1 ∈ ign
    · simp only [he, decide_true, Bool.not_true, Bool.false_eq_true, if_false]
      rw [ih]
      by_cases ha : a ∈ ign
      · simp [ha]
      · have : e.1 ≠ a := fun h => ha (h ▸ he)
        simp [ha, this]
    · simp only [he, decide_false, Bool.not_false, if_true, List.map_cons]
      rw [Dict.get?_cons]
      by_cases hea : e.1 = a
      · subst hea
        simp [he]
      · simp only [hea, if_false]
        exact ih

theorem without_link {ord : List Nat → List Nat} (ho : Reorders ord) {net : Net} {ign : List Nat} {a b : Nat} :
    Link (without ord net ign) a b ↔ Open net ign a b := by
  unfold Link Open
  rw [get_without]
  by_cases ha : a ∈ ign
  · simp [ha]
  · simp only [ha, if_false, Option.map_eq_some_iff]
    constructor
    · rintro ⟨_, ⟨ns, h1, rfl⟩, h2⟩
      rw [(ho _).mem_iff, List.mem_filter] at h2
      exact ⟨⟨ns, h1, h2.1⟩, by simp, by simpa using h2.2⟩
    · rintro ⟨⟨ns, h1, h2⟩, _, h3⟩
      refine ⟨_, ⟨ns, h1, rfl⟩, ?_⟩
      rw [(ho _).mem_iff, List.mem_filter]
      exact ⟨h2, by simpa using h3⟩

theorem route_without {ord : List Nat → List Nat} (ho : Reorders ord) {net : Net} {ign : List Nat} {n a b : Nat} :
    Route (Link (without ord net ign)) n a b ↔ Route (Open net ign) n a b :=
  ⟨Route.mono fun _ _ => (without_link ho).mp, Route.mono fun _ _ => (without_link ho).mpr⟩

/-- A direct neighbour is chosen at once. -/
theorem selectHop_direct {ord : List Nat → List Nat} {net : Net} {u v : Nat} {ign : List Nat} (h : Link net u v) :
    selectHop ord net u v ign = some v := by
  obtain ⟨ns, h1, h2⟩ := h
  simp [selectHop, h1, h2]

/-- What `select_hop` returns when the destination is no direct neighbour. -/
theorem selectHop_far {ord : List Nat → List Nat} (ho : Reorders ord) {net : Net} {u v : Nat} {ign : List Nat} (hne : u ≠ v)
    (h : ¬ Link net u v) :
    (∀ w, selectHop ord net u v ign = some w → FirstStep (Open net ign) w u v) ∧
    (selectHop ord net u v ign = none → ¬ Reachable (Open net ign) u v) := by
  unfold selectHop
  cases hu : net.get? u with
  | none =>
    refine ⟨by simp, fun _ => ?_⟩
    rintro ⟨n, hn⟩
    cases hn with
    | nil => exact hne rfl
    | cons e _ =>
      obtain ⟨⟨ns, h1, _⟩, _⟩ := e
      rw [hu] at h1; simp at h1
  | some ns =>
    have hv : v ∉ ns := fun hc => h ⟨ns, hu, hc⟩
    dsimp only
    rw [if_neg hv]
    have hr := shortestPath_right (net := without ord net ign) hne
    cases hs : shortestPath (without ord net ign) u v with
    | stuck => exact absurd hs shortestPath_ends
    | noPath =>
      rw [hs] at hr
      refine ⟨by simp, fun _ => ?_⟩
      rintro ⟨n, hn⟩
      exact hr ⟨n, (route_without ho).mpr hn⟩
    | path p =>
      rw [hs] at hr
      obtain ⟨d, h1, h2⟩ := hr
      obtain ⟨w, h3, h4, h5⟩ := h1.hop
      dsimp only
      rw [h3]
      refine ⟨?_, by simp⟩
      intro w' hw
      simp only [Option.some.injEq] at hw
      subst hw
      exact ⟨(without_link ho).mp h4, d, (route_without ho).mp h5, (route_without ho).mp h2.1,
        fun m hm => h2.2 m ((route_without ho).mpr hm)⟩

theorem FirstStep.reachable {E : Nat → Nat → Prop} {w a b : Nat} (h : FirstStep E w a b) : Reachable E a b := by
  obtain ⟨_, n, _, h2⟩ := h; exact ⟨_, h2.1⟩

theorem direct_first {net : Net} {ign : List Nat} {u v : Nat} (hne : u ≠ v) (h : Open net ign u v) :
    FirstStep (Open net ign) v u v := by
  refine ⟨h, 0, .nil _, .cons h (.nil _), ?_⟩
  intro m hm
  cases hm with
  | nil => exact absurd rfl hne
  | cons _ _ => omega

/-! ## C36 -/

/-- **C36.** From `u` to another node `v`, neither of them ignored: the hop selected is the first step of a route with the
fewest steps over nodes not ignored, and there is none exactly when there is no such route. In every network, whatever the
order of the sets. -/
theorem c36_shortest_partial (ord : List Nat → List Nat) (ho : Reorders ord) (net : Net) (u v : Nat) (ign : List Nat) (hne : u ≠ v)
    (hu : u ∉ ign) (hv : v ∉ ign) :
    (∀ w, selectHop ord net u v ign = some w → FirstStep (Open net ign) w u v) ∧
    (selectHop ord net u v ign = none ↔ ¬ Reachable (Open net ign) u v) := by
  by_cases hl : Link net u v
  · rw [selectHop_direct hl]
    have hf := direct_first hne (show Open net ign u v from ⟨hl, hu, hv⟩)
    refine ⟨fun w hw => by simp only [Option.some.injEq] at hw; subst hw; exact hf, by simp [hf.reachable]⟩
  · obtain ⟨h1, h2⟩ := selectHop_far ho hne hl (ign := ign)
    refine ⟨h1, h2, fun hr => ?_⟩
    cases hs : selectHop ord net u v ign with
    | none => rfl
    | some w => exact absurd (h1 w hs).reachable hr

/-- **C36 (no exception, no endless search).** The search ends by itself. -/
theorem c36_search_ends (net : Net) (u v : Nat) : shortestPath net u v ≠ .stuck := shortestPath_ends

/-- **C36 (the network).** Connecting adds exactly the link named, and the opposite one if asked for. -/
theorem c36_connect (net : Net) (u v : Nat) (tw : Bool) (a b : Nat) :
    Link (connect net u v tw) a b ↔ Link net a b ∨ (a = u ∧ b = v) ∨ (tw = true ∧ a = v ∧ b = u) := by
  have one : ∀ (n : Net) (u v a b : Nat), Link (n.set u (add (adj n u) v)) a b ↔ Link n a b ∨ (a = u ∧ b = v) := by
    intro n u v a b
    rw [← mem_adj, ← mem_adj]
    unfold adj
    rw [Dict.get?_set]
    by_cases h : u = a
    · subst h
      simp only [if_true, Option.getD_some, add, true_and]
      split
      · rename_i hm
        constructor
        · exact Or.inl
        · rintro (h | rfl)
          · exact h
          · exact hm
      · simp
    · have h' : ¬ a = u := fun hc => h hc.symm
      simp [h, h']
  unfold connect
  cases tw with
  | false => simpa using one net u v a b
  | true =>
    simp only [if_true, true_and]
    rw [one, one, or_assoc]

/-- Nodes 1-2-3-4 in a row, and 1-5-6-7-4. -/
def net0 : Net := [(1, [2, 5]), (2, [3]), (3, [4]), (5, [6]), (6, [7]), (7, [4])]

example : selectHop id net0 1 4 [] = some 2 ∧ selectHop id net0 1 4 [3] = some 5 ∧ selectHop id net0 1 4 [3, 6] = none ∧
    selectHop List.reverse net0 1 4 [] = some 2 := by decide

/-- An ignored destination that is a direct neighbour is still selected. -/
theorem c36_ignored_destination : ∃ (net : Net) (u v : Nat) (ign : List Nat), u ≠ v ∧ v ∈ ign ∧
    selectHop id net u v ign = some v ∧ ¬ Reachable (Open net ign) u v := by
  refine ⟨[(1, [2])], 1, 2, [2], by decide, by decide, by decide, ?_⟩
  rintro ⟨n, hn⟩
  cases n with
  | zero => cases hn
  | succ n => obtain ⟨b, _, h2⟩ := hn.unsnoc; exact h2.2.2 (by decide)

/-! ## C37 -/

/-- The same `n` turns later. -/
theorem after_add (c : Cfg) (up : Nat → Nat → Nat → Bool) (s : St) (n k : Nat) :
    after c up s (n + k) = after c (fun i => up (n + i)) (after c up s n) k := by
  induction k with
  | zero => rfl
  | succ k ih => rw [← Nat.add_assoc]; simp only [after]; rw [ih]

theorem tried_add (c : Cfg) (up : Nat → Nat → Nat → Bool) (s : St) (n k : Nat) :
    tried c up s (n + k) = tried c (fun i => up (n + i)) (after c up s n) k := by
  unfold tried; rw [after_add]

/-- It ends, or from some turn on every turn is a refused attempt over the same link to the destination. -/
def Settles (c : Cfg) (up : Nat → Nat → Nat → Bool) (s : St) : Prop :=
  (∃ n, (after c up s n).fate ≠ .moving) ∨ (∃ n a, Link c.net a c.dest ∧ ∀ m, n ≤ m → tried c up s m = some ⟨a, c.dest, false⟩)

theorem settles_of_next {c : Cfg} {up : Nat → Nat → Nat → Bool} {s : St}
    (h : Settles c (fun i => up (1 + i)) (after c up s 1)) : Settles c up s := by
  rcases h with ⟨n, hn⟩ | ⟨n, a, hl, hn⟩
  · exact Or.inl ⟨1 + n, by rw [after_add]; exact hn⟩
  · refine Or.inr ⟨1 + n, a, hl, fun m hm => ?_⟩
    have := hn (m - 1) (by omega)
    rw [← tried_add] at this
    rwa [show 1 + (m - 1) = m by omega] at this

theorem turn_direct {c : Cfg} {up : Nat → Nat → Bool} {s : St} (hm : s.fate = .moving) (hl : Link c.net s.curr c.dest) :
    turn c up s = if up s.curr c.dest then
        (⟨c.dest, if c.globalIgnore then s.failed else [], .delivered⟩, some ⟨s.curr, c.dest, true⟩)
      else ({ s with failed := s.failed ++ [c.dest] }, some ⟨s.curr, c.dest, false⟩) := by
  unfold turn
  rw [hm]
  dsimp only
  rw [selectHop_direct hl]
  simp

/-- As long as the link to the destination refuses, nothing else is tried. -/
theorem stays {c : Cfg} {up : Nat → Nat → Nat → Bool} {s : St} (hm : s.fate = .moving) (hl : Link c.net s.curr c.dest) (k : Nat)
    (hu : ∀ i, i < k → up i s.curr c.dest = false) : (after c up s k).curr = s.curr ∧ (after c up s k).fate = .moving := by
  induction k with
  | zero => exact ⟨rfl, hm⟩
  | succ k ih =>
    obtain ⟨h1, h2⟩ := ih fun i hi => hu i (by omega)
    simp only [after]
    rw [turn_direct h2 (h1 ▸ hl), h1, hu k (by omega)]
    simp [h1, h2]

theorem settles_direct {c : Cfg} {up : Nat → Nat → Nat → Bool} {s : St} (hm : s.fate = .moving) (hl : Link c.net s.curr c.dest) :
    Settles c up s := by
  by_cases h : ∃ k, up k s.curr c.dest = true
  · have : ∃ k, up k s.curr c.dest = true ∧ ∀ i, i < k → up i s.curr c.dest = false := by
      obtain ⟨k, hk⟩ := h
      induction k using Nat.strongRecOn with
      | ind k ih =>
        by_cases hc : ∃ i, i < k ∧ up i s.curr c.dest = true
        · obtain ⟨i, hi, hi'⟩ := hc; exact ih i hi hi'
        · exact ⟨k, hk, fun i hi => by
            cases hb : up i s.curr c.dest with
            | false => rfl
            | true => exact absurd ⟨i, hi, hb⟩ hc⟩
    obtain ⟨k, hk, hlt⟩ := this
    obtain ⟨h1, h2⟩ := stays hm hl k hlt
    refine Or.inl ⟨k + 1, ?_⟩
    simp only [after]
    rw [turn_direct h2 (h1 ▸ hl), h1, hk]
    simp
  · have hf : ∀ i, up i s.curr c.dest = false := fun i => by
      cases hb : up i s.curr c.dest with
      | false => rfl
      | true => exact absurd ⟨i, hb⟩ h
    refine Or.inr ⟨0, s.curr, hl, fun m _ => ?_⟩
    obtain ⟨h1, h2⟩ := stays hm hl m fun i _ => hf i
    unfold tried
    rw [turn_direct h2 (h1 ▸ hl), h1, hf m]
    simp

theorem turn_far {c : Cfg} {up : Nat → Nat → Bool} {s : St} (hm : s.fate = .moving) {w : Nat}
    (h : selectHop c.ord c.net s.curr c.dest s.failed = some w) :
    turn c up s = if up s.curr w then
        (⟨w, if c.globalIgnore then s.failed else [], if w = c.dest then .delivered else .moving⟩, some ⟨s.curr, w, true⟩)
      else ({ s with failed := s.failed ++ [w] }, some ⟨s.curr, w, false⟩) := by
  unfold turn
  rw [hm]
  dsimp only
  rw [h]

theorem turn_none {c : Cfg} {up : Nat → Nat → Bool} {s : St} (hm : s.fate = .moving)
    (h : selectHop c.ord c.net s.curr c.dest s.failed = none) : turn c up s = ({ s with fate := .dropped }, none) := by
  unfold turn
  rw [hm]
  dsimp only
  rw [h]

theorem FirstStep.ne {E : Nat → Nat → Prop} {w a b : Nat} (h : FirstStep E w a b) : w ≠ a := by
  rintro rfl
  obtain ⟨_, n, h1, h2⟩ := h
  have := h2.2 n h1
  omega

theorem unseen_snoc {U l : List Nat} {w : Nat} (hw : w ∈ U) (hl : w ∉ l) : unseen U (l ++ [w]) < unseen U l := by
  have h1 := unseen_cons hw hl
  have h2 : unseen U (l ++ [w]) ≤ unseen U (w :: l) := unseen_le fun x hx => by simp at hx ⊢; exact hx.symm
  omega

/-- The measure: nodes not failed, then distance. -/
theorem settles_aux {c : Cfg} (ho : Reorders c.ord) (hg : c.globalIgnore = true) (f : Nat) : ∀ (n : Nat) (s : St) (up : Nat → Nat → Nat → Bool),
    s.fate = .moving → s.curr ≠ c.dest → s.curr ∉ s.failed → c.dest ∉ s.failed → unseen (listed c.net) s.failed = f →
    (∀ m, Dist (Open c.net s.failed) m s.curr c.dest → m = n) → Settles c up s := by
  induction f using Nat.strongRecOn with
  | ind f ihf =>
    intro n
    induction n using Nat.strongRecOn with
    | ind n ihn =>
      intro s up hm hd hcf hdf hf hdist
      by_cases hl : Link c.net s.curr c.dest
      · exact settles_direct hm hl
      · obtain ⟨h1, h2⟩ := selectHop_far ho hd hl (ign := s.failed)
        cases hs : selectHop c.ord c.net s.curr c.dest s.failed with
        | none => exact Or.inl ⟨1, by simp only [after]; rw [turn_none hm hs]; simp⟩
        | some w =>
          have hfs := h1 w hs
          have hwd : w ≠ c.dest := by rintro rfl; exact hl hfs.1.1
          apply settles_of_next
          simp only [after]
          rw [turn_far hm hs]
          by_cases hup : up 0 s.curr w = true
          · rw [if_pos hup]
            simp only [hg, if_true, hwd, if_false]
            obtain ⟨he, k, hk, hk'⟩ := hfs
            have hkn := hdist _ hk'
            refine ihn k (by omega) _ _ rfl hwd he.2.2 hdf hf ?_
            intro m hm'
            have a := hm'.2 k hk
            have b := hk'.2 (m + 1) (.cons he hm'.1)
            omega
          · rw [if_neg hup]
            have hlt : unseen (listed c.net) (s.failed ++ [w]) < f := by
              rw [← hf]
              exact unseen_snoc (adj_listed (mem_adj.mpr hfs.1.1)) hfs.1.2.2
            have hdf' : c.dest ∉ s.failed ++ [w] := by simp [hdf, Ne.symm hwd]
            have hcf' : s.curr ∉ s.failed ++ [w] := by simp [hcf, Ne.symm hfs.ne]
            by_cases hr : Reachable (Open c.net (s.failed ++ [w])) s.curr c.dest
            · obtain ⟨m, hm'⟩ := hr.dist
              refine ihf _ hlt m _ _ hm hd hcf' hdf' rfl ?_
              intro m' h'
              exact Nat.le_antisymm (h'.2 m hm'.1) (hm'.2 m' h'.1)
            · exact ihf _ hlt 0 _ _ hm hd hcf' hdf' rfl fun m hm' => absurd ⟨m, hm'.1⟩ hr

/-- **C37 (termination; partial).** With `global_ignore`, in every network, however the links behave, a message is
delivered or dropped after finitely many attempts, or from some attempt on every attempt is one over the same link to the
destination that is refused. Missing, and false of the code (`c37_final_link`, `c37_ping_pong`): that it ends in the last
case, and that it ends without `global_ignore`. -/
theorem c37_ends_partial (c : Cfg) (ho : Reorders c.ord) (hg : c.globalIgnore = true) (source : Nat)
    (up : Nat → Nat → Nat → Bool) : Settles c up (start c source) := by
  by_cases h : source = c.dest
  · exact Or.inl ⟨0, by simp [after, start, h]⟩
  · have hs : (start c source).fate = .moving := by simp [start, h]
    by_cases hr : Reachable (Open c.net []) source c.dest
    · obtain ⟨n, hn⟩ := hr.dist
      exact settles_aux ho hg _ n _ up hs h (by simp [start]) (by simp [start]) rfl fun m hm =>
        Nat.le_antisymm (hm.2 n hn.1) (hn.2 m hm.1)
    · exact settles_aux ho hg _ 0 _ up hs h (by simp [start]) (by simp [start]) rfl fun m hm => absurd ⟨m, hm.1⟩ hr

theorem after_succ (c : Cfg) (up : Nat → Nat → Nat → Bool) (s : St) (n : Nat) :
    after c up s (n + 1) = (turn c (up n) (after c up s n)).1 := rfl

theorem turn_over {c : Cfg} {up : Nat → Nat → Bool} {s : St} (h : s.fate ≠ .moving) : turn c up s = (s, none) := by
  unfold turn
  cases hf : s.fate with
  | moving => exact absurd hf h
  | dropped => rfl
  | delivered => rfl

/-- Once it has ended nothing more happens. -/
theorem c37_over (c : Cfg) (up : Nat → Nat → Nat → Bool) (s : St) (n k : Nat) (h : (after c up s n).fate ≠ .moving) :
    after c up s (n + k) = after c up s n ∧ tried c up s (n + k) = none := by
  have : after c up s (n + k) = after c up s n := by
    induction k with
    | zero => rfl
    | succ k ih => rw [← Nat.add_assoc, after_succ, ih, turn_over h]
  refine ⟨this, ?_⟩
  unfold tried
  rw [this, turn_over h]

theorem selectHop_not_ignored {ord : List Nat → List Nat} (ho : Reorders ord) {net : Net} {u v w : Nat} {ign : List Nat} (hne : u ≠ v)
    (h : selectHop ord net u v ign = some w) : Link net u w ∧ (w = v ∨ w ∉ ign) := by
  by_cases hl : Link net u v
  · rw [selectHop_direct hl] at h
    simp only [Option.some.injEq] at h
    subst h
    exact ⟨hl, Or.inl rfl⟩
  · have := (selectHop_far ho hne hl).1 w h
    exact ⟨this.1.1, Or.inr this.1.2.2⟩

/-- A message still moving is not at its destination. -/
theorem moving_ne {c : Cfg} {up : Nat → Nat → Nat → Bool} {source : Nat} (n : Nat) :
    (after c up (start c source) n).fate = .moving → (after c up (start c source) n).curr ≠ c.dest := by
  induction n with
  | zero =>
    simp only [after, start]
    split
    · simp
    · rename_i h; exact fun _ => h
  | succ n ih =>
    rw [after_succ]
    by_cases hm : (after c up (start c source) n).fate = .moving
    · cases hs : selectHop c.ord c.net (after c up (start c source) n).curr c.dest (after c up (start c source) n).failed with
      | none => rw [turn_none hm hs]; simp
      | some w =>
        rw [turn_far hm hs]
        split
        · dsimp only
          split
          · simp
          · rename_i hw; exact fun _ => hw
        · exact fun _ => ih hm
    · rw [turn_over hm]; exact fun h => absurd h hm

/-- The attempt of a turn. -/
theorem tried_spec {c : Cfg} (ho : Reorders c.ord) {up : Nat → Nat → Nat → Bool} {source n : Nat} {t : Try}
    (h : tried c up (start c source) n = some t) :
    (after c up (start c source) n).fate = .moving ∧ t.src = (after c up (start c source) n).curr ∧
    Link c.net t.src t.dst ∧ (t.dst = c.dest ∨ t.dst ∉ (after c up (start c source) n).failed) ∧
    t.ok = up n t.src t.dst ∧
    after c up (start c source) (n + 1) = (if t.ok then
        ⟨t.dst, if c.globalIgnore then (after c up (start c source) n).failed else [], if t.dst = c.dest then .delivered else .moving⟩
      else ⟨t.src, (after c up (start c source) n).failed ++ [t.dst], .moving⟩) := by
  have hne := moving_ne (c := c) (up := up) (source := source) n
  rw [after_succ]
  unfold tried at h
  generalize after c up (start c source) n = s at h hne ⊢
  by_cases hm : s.fate = .moving
  · cases hs : selectHop c.ord c.net s.curr c.dest s.failed with
    | none => rw [turn_none hm hs] at h; simp at h
    | some w =>
      obtain ⟨h1, h2⟩ := selectHop_not_ignored ho (hne hm) hs
      rw [turn_far hm hs] at h ⊢
      split at h
      · rename_i hup
        simp only [Option.some.injEq] at h
        subst h
        exact ⟨hm, rfl, h1, h2, hup.symm, by simp [hup]⟩
      · rename_i hup
        simp only [Option.some.injEq] at h
        subst h
        refine ⟨hm, rfl, h1, h2, by simpa using hup, ?_⟩
        simp only [hup, Bool.false_eq_true, if_false]
        rw [← hm]
  · rw [turn_over hm] at h; simp at h

/-- **C37 (only along links that worked).** Wherever the message is, it got there from the source along links of the
network whose attempts succeeded. -/
theorem c37_along_working_links (c : Cfg) (ho : Reorders c.ord) (source : Nat) (up : Nat → Nat → Nat → Bool) (n : Nat) :
    Reachable (fun a b => Link c.net a b ∧ ∃ k, k < n ∧ tried c up (start c source) k = some ⟨a, b, true⟩ ∧ up k a b = true)
      source (after c up (start c source) n).curr := by
  induction n with
  | zero => exact ⟨0, .nil _⟩
  | succ n ih =>
    obtain ⟨m, hm⟩ := ih
    have hm' := hm.mono (E' := fun a b => Link c.net a b ∧ ∃ k, k < n + 1 ∧ tried c up (start c source) k = some ⟨a, b, true⟩ ∧
      up k a b = true) fun a b ⟨h1, k, h2, h3⟩ => ⟨h1, k, by omega, h3⟩
    cases ht : tried c up (start c source) n with
    | none =>
      have hc : (after c up (start c source) (n + 1)).curr = (after c up (start c source) n).curr := by
        rw [after_succ]
        unfold tried at ht
        generalize after c up (start c source) n = s at ht ⊢
        unfold turn at ht ⊢
        split
        · rename_i hf
          rw [hf] at ht
          dsimp only at ht ⊢
          split
          · rfl
          · rename_i hop hs
            rw [hs] at ht
            dsimp only at ht
            split at ht <;> simp at ht
        · rfl
      rw [hc]
      exact ⟨m, hm'⟩
    | some t =>
      obtain ⟨_, h2, h3, _, h5, h6⟩ := tried_spec ho ht
      rw [h6]
      cases hok : t.ok with
      | true =>
        simp only [if_true]
        refine ⟨m + 1, hm'.snoc ⟨h2 ▸ h3, n, by omega, ?_, ?_⟩⟩
        · rw [ht, ← h2, ← hok]
        · rw [← h2, ← h5, hok]
      | false =>
        simp only [Bool.false_eq_true, if_false]
        rw [h2]
        exact ⟨m, hm'⟩

/-- Failed nodes are remembered. -/
theorem failed_kept {c : Cfg} (hg : c.globalIgnore = true) {up : Nat → Nat → Nat → Bool} {s : St} (n k : Nat) :
    ∀ x ∈ (after c up s n).failed, x ∈ (after c up s (n + k)).failed := by
  induction k with
  | zero => exact fun x h => h
  | succ k ih =>
    intro x hx
    have := ih x hx
    rw [← Nat.add_assoc, after_succ]
    generalize after c up s (n + k) = s' at this ⊢
    by_cases hm : s'.fate = .moving
    · cases hs : selectHop c.ord c.net s'.curr c.dest s'.failed with
      | none => rw [turn_none hm hs]; exact this
      | some w =>
        rw [turn_far hm hs]
        split
        · simp [hg, this]
        · simp [this]
    · rw [turn_over hm]; exact this

/-- **C37 (not again; partial).** With `global_ignore` a node that refused the message, other than the destination, is
never tried again. -/
theorem c37_not_again_partial (c : Cfg) (ho : Reorders c.ord) (hg : c.globalIgnore = true) (source : Nat)
    (up : Nat → Nat → Nat → Bool) (i j : Nat) (hij : i < j) (t t' : Try) (hi : tried c up (start c source) i = some t)
    (hj : tried c up (start c source) j = some t') (ht : t.ok = false) (hd : t.dst ≠ c.dest) : t'.dst ≠ t.dst := by
  obtain ⟨_, _, _, _, _, h6⟩ := tried_spec ho hi
  obtain ⟨_, _, _, h4, _, _⟩ := tried_spec ho hj
  have hf : t.dst ∈ (after c up (start c source) (i + 1)).failed := by rw [h6, ht]; simp
  have := failed_kept hg (i + 1) (j - (i + 1)) t.dst hf
  rw [show i + 1 + (j - (i + 1)) = j by omega] at this
  intro he
  rcases h4 with h4 | h4
  · exact hd (he ▸ h4)
  · exact h4 (he ▸ this)

/-- **C37 (planning).** Every hop tried is the first step of a shortest route, from where the message is, over the nodes
that have not refused it (the destination counts as one that has not): all those that refused it so far with
`global_ignore`, only those since it last moved without. -/
theorem c37_replans (c : Cfg) (ho : Reorders c.ord) (source : Nat) (up : Nat → Nat → Nat → Bool) (i n : Nat) (hin : i ≤ n)
    (hi : i = 0 ∨ c.globalIgnore = false ∧ ∃ j t, j + 1 = i ∧ tried c up (start c source) j = some t ∧ t.ok = true)
    (hmid : c.globalIgnore = true ∨ ∀ k t, i ≤ k → k < n → tried c up (start c source) k = some t → t.ok = false)
    (t : Try) (ht : tried c up (start c source) n = some t) :
    ∃ ign, (∀ x, x ∈ ign ↔ ∃ k t', i ≤ k ∧ k < n ∧ tried c up (start c source) k = some t' ∧ t'.ok = false ∧ t'.dst = x) ∧
      (t.dst = c.dest ∨ FirstStep (Open c.net ign) t.dst t.src c.dest) := by
  have h0 : (after c up (start c source) i).failed = [] := by
    rcases hi with rfl | ⟨hg, j, t0, rfl, hj, hok⟩
    · rfl
    · obtain ⟨_, _, _, _, _, h6⟩ := tried_spec ho hj
      rw [h6, hok]; simp [hg]
  refine ⟨(after c up (start c source) n).failed, ?_, ?_⟩
  · clear ht t
    obtain ⟨d, rfl⟩ : ∃ d, n = i + d := ⟨n - i, by omega⟩
    clear hin
    induction d with
    | zero =>
      intro x
      rw [Nat.add_zero, h0]
      constructor
      · intro h; simp at h
      · rintro ⟨k, t', h1, h2, _⟩; omega
    | succ d ih =>
      have ih := ih (hmid.imp id fun h k t h1 h2 => h k t h1 (by omega))
      intro x
      cases ht : tried c up (start c source) (i + d) with
      | none =>
        have hsame : (after c up (start c source) (i + d + 1)).failed = (after c up (start c source) (i + d)).failed := by
          rw [after_succ]
          unfold tried at ht
          generalize after c up (start c source) (i + d) = s at ht ⊢
          by_cases hm : s.fate = .moving
          · cases hs : selectHop c.ord c.net s.curr c.dest s.failed with
            | none => rw [turn_none hm hs]
            | some w => rw [turn_far hm hs] at ht; split at ht <;> simp at ht
          · rw [turn_over hm]
        rw [← Nat.add_assoc, hsame, ih]
        constructor
        · rintro ⟨k, t', h1, h2, h3⟩; exact ⟨k, t', h1, by omega, h3⟩
        · rintro ⟨k, t', h1, h2, h3, h4⟩
          refine ⟨k, t', h1, ?_, h3, h4⟩
          rcases Nat.lt_succ_iff_lt_or_eq.mp h2 with h | h
          · exact h
          · rw [h, ht] at h3; simp at h3
      | some t0 =>
        obtain ⟨_, _, _, _, _, h6⟩ := tried_spec ho ht
        rw [← Nat.add_assoc, h6]
        cases hok : t0.ok with
        | true =>
          have hg : c.globalIgnore = true := by
            rcases hmid with h | h
            · exact h
            · have := h (i + d) t0 (by omega) (by omega) ht
              rw [hok] at this; simp at this
          simp only [if_true, hg]
          rw [ih]
          constructor
          · rintro ⟨k, t', h1, h2, h3⟩; exact ⟨k, t', h1, by omega, h3⟩
          · rintro ⟨k, t', h1, h2, h3, h4⟩
            refine ⟨k, t', h1, ?_, h3, h4⟩
            rcases Nat.lt_succ_iff_lt_or_eq.mp h2 with h | h
            · exact h
            · rw [h, ht] at h3
              simp only [Option.some.injEq] at h3
              subst h3
              rw [hok] at h4; simp at h4
        | false =>
          simp only [Bool.false_eq_true, if_false, List.mem_append, List.mem_singleton]
          rw [ih]
          constructor
          · rintro (⟨k, t', h1, h2, h3⟩ | rfl)
            · exact ⟨k, t', h1, by omega, h3⟩
            · exact ⟨i + d, t0, by omega, by omega, ht, hok, rfl⟩
          · rintro ⟨k, t', h1, h2, h3, h4, h5⟩
            rcases Nat.lt_succ_iff_lt_or_eq.mp h2 with h | h
            · exact Or.inl ⟨k, t', h1, h, h3, h4, h5⟩
            · rw [h, ht] at h3
              simp only [Option.some.injEq] at h3
              subst h3
              exact Or.inr h5.symm
  · have hne := moving_ne (c := c) (up := up) (source := source) n
    have hsp := (tried_spec ho ht)
    obtain ⟨hm, hsrc, _⟩ := hsp
    have hd := hne hm
    unfold tried at ht
    rw [hsrc]
    generalize after c up (start c source) n = s at ht hm hd ⊢
    by_cases hl : Link c.net s.curr c.dest
    · rw [turn_direct hm hl] at ht
      split at ht <;> simp only [Option.some.injEq] at ht <;> subst ht <;> exact Or.inl rfl
    · cases hs : selectHop c.ord c.net s.curr c.dest s.failed with
      | none => rw [turn_none hm hs] at ht; simp at ht
      | some w =>
        have := (selectHop_far ho hd hl).1 w hs
        rw [turn_far hm hs] at ht
        split at ht <;> simp only [Option.some.injEq] at ht <;> subst ht <;> exact Or.inr this

/-- **C37 (all links work).** Then the message is delivered after exactly as many hops as the shortest route has, each
successful; if there is no route it is dropped at once. With and without `global_ignore`. -/
theorem c37_all_up (c : Cfg) (ho : Reorders c.ord) (source n : Nat) (hd : Dist (Link c.net) n source c.dest) :
    (after c (fun _ _ _ => true) (start c source) n).fate = .delivered ∧
    (∀ k, k < n → (after c (fun _ _ _ => true) (start c source) k).fate = .moving ∧
      ∃ a b, tried c (fun _ _ _ => true) (start c source) k = some ⟨a, b, true⟩) := by
  have hopen : ∀ a b, Open c.net [] a b ↔ Link c.net a b := fun a b => by simp [Open]
  have key : ∀ (n : Nat) (s : St), s.failed = [] → s.fate = .moving → s.curr ≠ c.dest → Dist (Link c.net) n s.curr c.dest →
      (after c (fun _ _ _ => true) s n).fate = .delivered ∧
      (∀ k, k < n → (after c (fun _ _ _ => true) s k).fate = .moving ∧
        ∃ a b, tried c (fun _ _ _ => true) s k = some ⟨a, b, true⟩) := by
    intro n
    induction n with
    | zero =>
      intro s _ _ hne hd
      have := hd.1
      generalize s.curr = x at this hne
      cases this
      exact absurd rfl hne
    | succ n ih =>
      intro s hf hm hne hd
      have hp := c36_shortest_partial c.ord ho c.net s.curr c.dest [] hne (by simp) (by simp)
      cases hs : selectHop c.ord c.net s.curr c.dest [] with
      | none =>
        exact absurd ⟨n + 1, hd.1.mono fun a b => (hopen a b).mpr⟩ (hp.2.mp hs)
      | some w =>
        obtain ⟨he, m, h1, h2⟩ := hp.1 w hs
        have h1' := h1.mono fun a b => (hopen a b).mp
        have hmn : m = n := by
          have a := h2.2 (n + 1) (hd.1.mono fun a b => (hopen a b).mpr)
          have b := hd.2 (m + 1) (h2.1.mono fun a b => (hopen a b).mp)
          omega
        subst hmn
        have hdw : Dist (Link c.net) m w c.dest := ⟨h1', fun k hk => by
          have := hd.2 (k + 1) (.cons ((hopen _ _).mp he) hk)
          omega⟩
        have hturn : turn c (fun _ _ => true) s = (⟨w, [], if w = c.dest then .delivered else .moving⟩, some ⟨s.curr, w, true⟩) := by
          rw [turn_far hm (by rw [hf]; exact hs)]
          simp [hf]
        have h1step : after c (fun _ _ _ => true) s 1 = ⟨w, [], if w = c.dest then .delivered else .moving⟩ := by
          show (turn c (fun _ _ => true) s).1 = _
          rw [hturn]
        have hfirst : s.fate = .moving ∧ ∃ a b, tried c (fun _ _ _ => true) s 0 = some ⟨a, b, true⟩ := by
          refine ⟨hm, s.curr, w, ?_⟩
          show (turn c (fun _ _ => true) s).2 = _
          rw [hturn]
        by_cases hw : w = c.dest
        · have hm0 : m = 0 := by
            have := hdw.2 0 (by rw [hw]; exact .nil _)
            omega
          subst hm0
          refine ⟨by rw [h1step]; simp [hw], ?_⟩
          intro k hk
          have : k = 0 := by omega
          subst this
          exact hfirst
        · rw [if_neg hw] at h1step
          obtain ⟨i1, i2⟩ := ih ⟨w, [], .moving⟩ rfl rfl hw hdw
          refine ⟨by rw [show m + 1 = 1 + m by omega, after_add, h1step]; exact i1, ?_⟩
          intro k hk
          cases k with
          | zero => exact hfirst
          | succ k =>
            rw [show k + 1 = 1 + k by omega, after_add, tried_add, h1step]
            exact i2 k (by omega)
  by_cases h : source = c.dest
  · subst h
    have hn : n = 0 := by have := hd.2 0 (.nil _); omega
    subst hn
    exact ⟨by simp [after, start], fun k hk => by omega⟩
  · exact key n (start c source) rfl (by simp [start, h]) h hd

theorem c37_no_route (c : Cfg) (ho : Reorders c.ord) (source : Nat) (h : ¬ Reachable (Link c.net) source c.dest)
    (up : Nat → Nat → Nat → Bool) :
    (after c up (start c source) 1).fate = .dropped ∧ tried c up (start c source) 0 = none := by
  have hne : source ≠ c.dest := by rintro rfl; exact h ⟨0, .nil _⟩
  have hm : (start c source).fate = .moving := by simp [start, hne]
  have hs : selectHop c.ord c.net source c.dest [] = none := by
    rw [(c36_shortest_partial c.ord ho c.net source c.dest [] hne (by simp) (by simp)).2]
    rintro ⟨n, hn⟩
    exact h ⟨n, hn.mono fun _ _ e => e.1⟩
  unfold tried
  rw [after_succ]
  show (turn c (up 0) (start c source)).1.fate = _ ∧ (turn c (up 0) (start c source)).2 = _
  rw [turn_none hm hs]
  exact ⟨rfl, rfl⟩

/-- Links that fail because nodes are down, the same throughout. -/
def downNodes (bad : List Nat) : Nat → Nat → Nat → Bool := fun _ a b => !decide (a ∈ bad) && !decide (b ∈ bad)

theorem Route.symm {E : Nat → Nat → Prop} (hE : ∀ a b, E a b → E b a) {n a b : Nat} (h : Route E n a b) : Route E n b a := by
  induction h with
  | nil a => exact .nil a
  | cons e _ ih => exact ih.snoc (hE _ _ e)

/-- **C37 (delivered if a working route exists; partial).** With `global_ignore` and two-way links, while some set of nodes
is down (neither the source nor the destination), the message always ends: delivered if there is a route over working
nodes, and dropped if there is none. Missing, and false of the code (`c37_route_missed_link`, `c37_route_missed_one_way`,
`c37_ping_pong`): the same for links that fail one by one, for one-way links, and without `global_ignore`. -/
theorem c37_two_way_partial (c : Cfg) (ho : Reorders c.ord) (hg : c.globalIgnore = true) (hsym : ∀ a b, Link c.net a b → Link c.net b a)
    (bad : List Nat) (source : Nat) (hsrc : source ∉ bad) (hdst : c.dest ∉ bad) :
    (Reachable (Open c.net bad) source c.dest → ∃ n, (after c (downNodes bad) (start c source) n).fate = .delivered) ∧
    (¬ Reachable (Open c.net bad) source c.dest → ∃ n, (after c (downNodes bad) (start c source) n).fate = .dropped) := by
  have hinv : ∀ n, Reachable (Open c.net bad) source (after c (downNodes bad) (start c source) n).curr ∧
      (after c (downNodes bad) (start c source) n).curr ∉ bad ∧
      (∀ x ∈ (after c (downNodes bad) (start c source) n).failed, x ∈ bad) ∧
      ((after c (downNodes bad) (start c source) n).fate = .delivered → (after c (downNodes bad) (start c source) n).curr = c.dest) ∧
      ((after c (downNodes bad) (start c source) n).fate = .dropped → ¬ Reachable (Open c.net bad) source c.dest) := by
    intro n
    induction n with
    | zero =>
      refine ⟨⟨0, .nil _⟩, hsrc, by simp [after, start], ?_, ?_⟩
      · simp only [after, start]; split
        · intro _; assumption
        · simp
      · simp only [after, start]; split <;> simp
    | succ n ih =>
      obtain ⟨⟨m, h1⟩, h2, h3, h4, h5⟩ := ih
      have hne := moving_ne (c := c) (up := downNodes bad) (source := source) n
      rw [after_succ]
      generalize after c (downNodes bad) (start c source) n = s at h1 h2 h3 h4 h5 hne ⊢
      by_cases hm : s.fate = .moving
      · cases hs : selectHop c.ord c.net s.curr c.dest s.failed with
        | none =>
          rw [turn_none hm hs]
          refine ⟨⟨m, h1⟩, h2, h3, by simp, fun _ hr => ?_⟩
          have hl : ¬ Link c.net s.curr c.dest := fun hl => by rw [selectHop_direct hl] at hs; simp at hs
          refine (selectHop_far ho (hne hm) hl).2 hs ?_
          obtain ⟨k, hk⟩ := hr
          have hback := h1.symm (fun a b (e : Open c.net bad a b) => (⟨hsym _ _ e.1, e.2.2, e.2.1⟩ : Open c.net bad b a))
          obtain ⟨j, hj⟩ := hback.trans hk
          exact ⟨j, hj.mono fun a b e => ⟨e.1, fun h => e.2.1 (h3 _ h), fun h => e.2.2 (h3 _ h)⟩⟩
        | some w =>
          obtain ⟨hl, _⟩ := selectHop_not_ignored ho (hne hm) hs
          rw [turn_far hm hs]
          split
          · rename_i hup
            have hwb : w ∉ bad := by
              simp only [downNodes, Bool.and_eq_true, Bool.not_eq_true', decide_eq_false_iff_not] at hup
              exact hup.2
            refine ⟨⟨m + 1, h1.snoc ⟨hl, h2, hwb⟩⟩, hwb, by simpa [hg] using h3, ?_, ?_⟩
            · dsimp only; split
              · intro _; assumption
              · simp
            · dsimp only; split <;> simp
          · rename_i hup
            have hwb : w ∈ bad := by
              simp only [downNodes, Bool.and_eq_true, Bool.not_eq_true', decide_eq_false_iff_not, not_and, Decidable.not_not] at hup
              exact hup h2
            refine ⟨⟨m, h1⟩, h2, ?_, h4, h5⟩
            intro x hx
            simp only [List.mem_append, List.mem_singleton] at hx
            rcases hx with hx | rfl
            · exact h3 x hx
            · exact hwb
      · rw [turn_over hm]
        exact ⟨⟨m, h1⟩, h2, h3, h4, h5⟩
  have hends : ∃ n, (after c (downNodes bad) (start c source) n).fate ≠ .moving := by
    rcases c37_ends_partial c ho hg source (downNodes bad) with h | ⟨n, a, _, hn⟩
    · exact h
    · exfalso
      have ht := hn n (Nat.le_refl _)
      obtain ⟨_, h2, _, _, h5, _⟩ := tried_spec ho ht
      have hc := (hinv n).2.1
      rw [← h2] at hc
      dsimp only at hc h5
      simp [downNodes, hc, hdst] at h5
  obtain ⟨n, hn⟩ := hends
  obtain ⟨h1, _, _, h4, h5⟩ := hinv n
  cases hf : (after c (downNodes bad) (start c source) n).fate with
  | moving => exact absurd hf hn
  | delivered =>
    refine ⟨fun _ => ⟨n, hf⟩, fun h => absurd ?_ h⟩
    rw [← h4 hf]; exact h1
  | dropped => exact ⟨fun h => absurd h (h5 hf), fun _ => ⟨n, hf⟩⟩

/-- A square with a tail: 1-2-4 and 1-3-5-4, two-way; node 2 is down. -/
def net1 : Net := [(1, [2, 3]), (2, [1, 4]), (3, [1, 5]), (5, [3, 4]), (4, [2, 5])]

example : (after ⟨net1, id, true, 4⟩ (downNodes [2]) (start ⟨net1, id, true, 4⟩ 1) 4) = ⟨4, [2], .delivered⟩ ∧
    (after ⟨net1, id, true, 4⟩ (downNodes [2, 3]) (start ⟨net1, id, true, 4⟩ 1) 3) = ⟨1, [2, 3], .dropped⟩ := by decide

/-! ## Where the code does not keep the property -/

theorem never_ends {c : Cfg} {up : Nat → Nat → Nat → Bool} {s : St} (S : List St) (hs : s ∈ S)
    (h1 : ∀ x ∈ S, x.fate = .moving) (h2 : ∀ k, ∀ x ∈ S, (turn c (up k) x).1 ∈ S) (n : Nat) :
    (after c up s n).fate = .moving := by
  have : after c up s n ∈ S := by
    induction n with
    | zero => exact hs
    | succ n ih => exact h2 n _ ih
  exact h1 _ this

/-- The final link stays blocked: with or without `global_ignore` the message is tried forever and never dropped. -/
theorem c37_final_link (g : Bool) (n : Nat) :
    (after ⟨[(1, [2])], id, g, 2⟩ (fun _ _ _ => false) (start ⟨[(1, [2])], id, g, 2⟩ 1) n).fate = .moving :=
  (stays (c := ⟨[(1, [2])], id, g, 2⟩) (up := fun _ _ _ => false) (s := start ⟨[(1, [2])], id, g, 2⟩ 1) (by simp [start])
    ⟨[2], rfl, by simp⟩ n (fun _ _ => rfl)).2

/-- Two-way links 1-2, 1-3-6, 2-4-6 and the long way 1-7-8-9-10-6. -/
def net2 : Net := [(1, [2, 3, 7]), (2, [1, 4]), (3, [1, 6]), (4, [2, 6]), (6, [3, 4, 10]), (7, [1, 8]), (8, [7, 9]), (9, [8, 10]),
  (10, [9, 6])]

/-- Without `global_ignore`, nodes 3 and 4 down: the message goes to and fro between 1 and 2 forever, though the long way
works. -/
theorem c37_ping_pong : (∀ n, (after ⟨net2, id, false, 6⟩ (downNodes [3, 4]) (start ⟨net2, id, false, 6⟩ 1) n).fate = .moving) ∧
    Reachable (Open net2 [3, 4]) 1 6 := by
  constructor
  · intro n
    refine never_ends [⟨1, [], .moving⟩, ⟨1, [3], .moving⟩, ⟨2, [], .moving⟩, ⟨2, [4], .moving⟩] (by decide) (by decide) ?_ n
    intro k
    show ∀ x ∈ _, (turn _ (downNodes [3, 4] 0) x).1 ∈ _
    decide
  · have l : ∀ a b, (∃ ns, net2.get? a = some ns ∧ b ∈ ns) → a ∉ [3, 4] → b ∉ [3, 4] → Open net2 [3, 4] a b :=
      fun a b h h1 h2 => ⟨h, h1, h2⟩
    exact ⟨5, .cons (l 1 7 ⟨_, rfl, by decide⟩ (by decide) (by decide)) (.cons (l 7 8 ⟨_, rfl, by decide⟩ (by decide) (by decide))
      (.cons (l 8 9 ⟨_, rfl, by decide⟩ (by decide) (by decide)) (.cons (l 9 10 ⟨_, rfl, by decide⟩ (by decide) (by decide))
      (.cons (l 10 6 ⟨_, rfl, by decide⟩ (by decide) (by decide)) (.nil 6)))))⟩

/-- In the same run node 3 refuses the message, and is tried again later. -/
theorem c37_tried_again : tried ⟨net2, id, false, 6⟩ (downNodes [3, 4]) (start ⟨net2, id, false, 6⟩ 1) 0 = some ⟨1, 3, false⟩ ∧
    tried ⟨net2, id, false, 6⟩ (downNodes [3, 4]) (start ⟨net2, id, false, 6⟩ 1) 4 = some ⟨1, 3, false⟩ := by decide

/-- Only the link 1-2 is blocked; 1-3-2-4 works, but the message is dropped. -/
theorem c37_route_missed_link (g : Bool) :
    (after ⟨[(1, [2, 3]), (2, [4]), (3, [2])], id, g, 4⟩ (fun _ a b => !(a == 1 && b == 2))
      (start ⟨[(1, [2, 3]), (2, [4]), (3, [2])], id, g, 4⟩ 1) 2).fate = .dropped ∧
    Reachable (fun a b => Link [(1, [2, 3]), (2, [4]), (3, [2])] a b ∧ (!(a == 1 && b == 2)) = true) 1 4 := by
  refine ⟨by cases g <;> decide, 3, ?_⟩
  exact .cons (b := 3) ⟨⟨_, rfl, by decide⟩, rfl⟩ (.cons (b := 2) ⟨⟨_, rfl, by decide⟩, rfl⟩ (.cons ⟨⟨_, rfl, by decide⟩, rfl⟩ (.nil 4)))

/-- One-way links, node 3 down: the message goes 1-2 and is dropped there, though 1-5-6-7-4 works. -/
theorem c37_route_missed_one_way :
    (after ⟨net0, id, true, 4⟩ (downNodes [3]) (start ⟨net0, id, true, 4⟩ 1) 3).fate = .dropped ∧
    Reachable (Open net0 [3]) 1 4 := by
  refine ⟨by decide, 4, ?_⟩
  have l : ∀ a b, (∃ ns, net0.get? a = some ns ∧ b ∈ ns) → a ∉ [3] → b ∉ [3] → Open net0 [3] a b := fun a b h h1 h2 => ⟨h, h1, h2⟩
  exact .cons (l 1 5 ⟨_, rfl, by decide⟩ (by decide) (by decide)) (.cons (l 5 6 ⟨_, rfl, by decide⟩ (by decide) (by decide))
    (.cons (l 6 7 ⟨_, rfl, by decide⟩ (by decide) (by decide)) (.cons (l 7 4 ⟨_, rfl, by decide⟩ (by decide) (by decide)) (.nil 4))))

end Verif.Routing
