import Verif.Routing.Props

/-! # C80: the order in which the neighbours of a node are gone through

`_shortest_path` goes through a set of names (routing.py 24). -/

namespace Verif.Orders.Routing

open Verif.Routing

theorem open_congr {net net' : Net} (hl : ∀ a b, Link net' a b ↔ Link net a b) (ign : List Nat) : Open net' ign = Open net ign := by
  funext a b; simp only [Open, hl]

/-- **C80, whether there is a route, and how long it is.** Two managers with the same links, whatever the orders of their sets: a hop is found by the one exactly if it
is by the other; whichever it is, the way that begins with it is as long. -/
theorem c80_route (ord ord' : List Nat → List Nat) (ho : Reorders ord) (ho' : Reorders ord') (net net' : Net) (hl : ∀ a b, Link net' a b ↔ Link net a b)
    (u v : Nat) (ign : List Nat) (hne : u ≠ v) (hu : u ∉ ign) (hv : v ∉ ign) :
    (selectHop ord' net' u v ign = none ↔ selectHop ord net u v ign = none) ∧
      ∀ w w', selectHop ord net u v ign = some w → selectHop ord' net' u v ign = some w' →
        ∃ n, Dist (Open net ign) n w v ∧ Dist (Open net ign) n w' v := by
  obtain ⟨h1, h2⟩ := c36_shortest_partial ord ho net u v ign hne hu hv
  obtain ⟨h1', h2'⟩ := c36_shortest_partial ord' ho' net' u v ign hne hu hv
  rw [open_congr hl] at h1' h2'
  refine ⟨h2'.trans h2.symm, fun w w' hw hw' => ?_⟩
  obtain ⟨e, n, r, d⟩ := h1 w hw
  obtain ⟨e', n', r', d'⟩ := h1' w' hw'
  have hn : n = n' := by
    have g1 := d.2 _ d'.1
    have g2 := d'.2 _ d.1
    omega
  subst hn
  refine ⟨n, ⟨r, fun m hm => ?_⟩, ⟨r', fun m hm => ?_⟩⟩
  · have := d.2 _ (.cons e hm); omega
  · have := d.2 _ (.cons e' hm); omega

/-- **C80, with all links up.** The message is delivered after the same number of hops. -/
theorem c80_all_up (c c' : Cfg) (ho : Reorders c.ord) (ho' : Reorders c'.ord) (hl : ∀ a b, Link c'.net a b ↔ Link c.net a b) (hd : c'.dest = c.dest) (source n : Nat)
    (h : Dist (Link c.net) n source c.dest) :
    (after c (fun _ _ _ => true) (start c source) n).fate = .delivered ∧ (after c' (fun _ _ _ => true) (start c' source) n).fate = .delivered ∧
      ∀ k, k < n → (after c (fun _ _ _ => true) (start c source) k).fate = .moving ∧ (after c' (fun _ _ _ => true) (start c' source) k).fate = .moving := by
  have hL : Link c'.net = Link c.net := by funext a b; exact propext (hl a b)
  obtain ⟨h1, h2⟩ := c37_all_up c ho source n h
  obtain ⟨h1', h2'⟩ := c37_all_up c' ho' source n (by rw [hL, hd]; exact h)
  exact ⟨h1, h1', fun k hk => ⟨(h2 k hk).1, (h2' k hk).1⟩⟩

theorem delivered_iff (c : Cfg) (ho : Reorders c.ord) (hg : c.globalIgnore = true) (hsym : ∀ a b, Link c.net a b → Link c.net b a) (bad : List Nat) (source : Nat)
    (hsrc : source ∉ bad) (hdst : c.dest ∉ bad) :
    (∃ n, (after c (downNodes bad) (start c source) n).fate = .delivered) ↔ Reachable (Open c.net bad) source c.dest := by
  obtain ⟨h1, h2⟩ := c37_two_way_partial c ho hg hsym bad source hsrc hdst
  refine ⟨fun ⟨n, hn⟩ => ?_, h1⟩
  refine Classical.byContradiction fun hr => ?_
  obtain ⟨m, hm⟩ := h2 hr
  have e1 := (c37_over c (downNodes bad) (start c source) n m (by rw [hn]; simp)).1
  have e2 := (c37_over c (downNodes bad) (start c source) m n (by rw [hm]; simp)).1
  rw [Nat.add_comm m n, e1] at e2
  rw [e2, hm] at hn
  cases hn

/-- **C80, with nodes that fail.** With two-way links and `global_ignore`, the message is delivered in the one case exactly if it is in the other. -/
theorem c80_failed_nodes (c c' : Cfg) (ho : Reorders c.ord) (ho' : Reorders c'.ord) (hl : ∀ a b, Link c'.net a b ↔ Link c.net a b) (hd : c'.dest = c.dest)
    (hg : c.globalIgnore = true) (hg' : c'.globalIgnore = true) (hsym : ∀ a b, Link c.net a b → Link c.net b a) (bad : List Nat) (source : Nat)
    (hsrc : source ∉ bad) (hdst : c.dest ∉ bad) :
    (∃ n, (after c' (downNodes bad) (start c' source) n).fate = .delivered) ↔ ∃ n, (after c (downNodes bad) (start c source) n).fate = .delivered := by
  rw [delivered_iff c ho hg hsym bad source hsrc hdst,
    delivered_iff c' ho' hg' (fun a b h => (hl b a).2 (hsym a b ((hl a b).1 h))) bad source hsrc (hd ▸ hdst), open_congr hl, hd]

/-- From 1 to 4 over 2 or over 3. -/
def fork : Net := [(1, [2, 3]), (2, [1, 4]), (3, [1, 4]), (4, [2, 3])]

theorem reorders_reverse : Reorders List.reverse := fun l => (List.reverse_perm l)

theorem fork_sym : ∀ a b, Link fork a b → Link fork b a := by
  rintro a b ⟨ns, h1, h2⟩
  simp only [fork, Dict.get?_cons, Dict.get?_nil] at h1
  split at h1
  · rename_i e; subst e; simp only [Option.some.injEq] at h1; subst h1
    simp only [List.mem_cons, List.not_mem_nil, or_false] at h2
    rcases h2 with rfl | rfl <;> exact ⟨_, rfl, by decide⟩
  · split at h1
    · rename_i e; subst e; simp only [Option.some.injEq] at h1; subst h1
      simp only [List.mem_cons, List.not_mem_nil, or_false] at h2
      rcases h2 with rfl | rfl <;> exact ⟨_, rfl, by decide⟩
    · split at h1
      · rename_i e; subst e; simp only [Option.some.injEq] at h1; subst h1
        simp only [List.mem_cons, List.not_mem_nil, or_false] at h2
        rcases h2 with rfl | rfl <;> exact ⟨_, rfl, by decide⟩
      · split at h1
        · rename_i e; subst e; simp only [Option.some.injEq] at h1; subst h1
          simp only [List.mem_cons, List.not_mem_nil, or_false] at h2
          rcases h2 with rfl | rfl <;> exact ⟨_, rfl, by decide⟩
        · cases h1

example : (∃ n, (after ⟨fork, List.reverse, true, 4⟩ (downNodes [2]) (start ⟨fork, List.reverse, true, 4⟩ 1) n).fate = .delivered) ↔
    ∃ n, (after ⟨fork, id, true, 4⟩ (downNodes [2]) (start ⟨fork, id, true, 4⟩ 1) n).fate = .delivered :=
  c80_failed_nodes ⟨fork, id, true, 4⟩ ⟨fork, List.reverse, true, 4⟩ (fun l => List.Perm.refl _) reorders_reverse (fun _ _ => Iff.rfl) rfl rfl rfl fork_sym [2] 1 (by decide) (by decide)

/-- **C80 is false of the way that a message takes**: over the one node or the other. -/
theorem c80_which_way : ∃ (net : Net) (ord ord' : List Nat → List Nat), Reorders ord ∧ Reorders ord' ∧ selectHop ord net 1 4 [] = some 2 ∧ selectHop ord' net 1 4 [] = some 3 :=
  ⟨fork, id, List.reverse, fun _ => List.Perm.refl _, reorders_reverse, by decide, by decide⟩

/-- **C80 is false of whether a message arrives**: the link from 2 to 4 is down. In one order the message takes the other way and arrives; in the other it tries
that link for ever. -/
theorem c80_arrives : ∃ (net : Net) (ord ord' : List Nat → List Nat) (up : Nat → Nat → Nat → Bool), Reorders ord ∧ Reorders ord' ∧
    (∀ n, (after ⟨net, ord, true, 4⟩ up (start ⟨net, ord, true, 4⟩ 1) n).fate = .moving) ∧
    (after ⟨net, ord', true, 4⟩ up (start ⟨net, ord', true, 4⟩ 1) 2).fate = .delivered := by
  refine ⟨fork, id, List.reverse, fun _ a b => !(a == 2 && b == 4), fun _ => List.Perm.refl _, reorders_reverse, ?_, by decide⟩
  intro n
  cases n with
  | zero => decide
  | succ n =>
    rw [Nat.add_comm, after_add]
    refine (stays (c := ⟨fork, id, true, 4⟩) (by decide) ⟨_, rfl, by decide⟩ n (fun k hk => ?_)).2
    decide

end Verif.Orders.Routing
