import Verif.Proxy.Born

/-!
# Building and cloning refine the specification
-/

namespace Verif.Proxy

open Spec (Declared put putObj same sameObj note suits)

variable {V : Type} [DecidableEq V]
variable {C : Cfg V} {σ τ : St V} {a : Actor V} {G : Nat → Option (Obj V)} {L : Nat → Nat → Prop}
variable {s : Spec.St V} {own : Nat → Option Owner}

theorem Grow.ge (W : Grow C σ τ a G L) : σ.heap.length ≤ τ.heap.length := by
  by_contra h
  have hlt : τ.heap.length < σ.heap.length := by omega
  have h1 := W.pre τ.heap.length _ (List.getElem?_eq_getElem hlt)
  have := (List.getElem?_eq_some_iff.mp h1).1
  omega

theorem Grow.not_new (W : Grow C σ τ a G L) {r : Nat} (h : τ.heap.length ≤ r) (m : Nat) : a.attr.get? m ≠ some r := by
  intro hm
  obtain ⟨o, -, h1, -⟩ := W.val m r hm
  have := (List.getElem?_eq_some_iff.mp h1).1
  omega

theorem Grow.no_has {n : Nat} (h : a.attr.get? n = none) : a.attr.has n = false := by
  simp [Dict.has, h]

theorem append_wf {o : Obj V} (h : ∀ (r : Nat) (o : Obj V), τ.heap[r]? = some o → ObjOK C o) (ho : ObjOK C o) :
    ∀ (r : Nat) (x : Obj V), (τ.heap ++ [o])[r]? = some x → ObjOK C x := by
  intro r x hx
  by_cases hr : r < τ.heap.length
  · rw [List.getElem?_append_left hr] at hx; exact h r x hx
  · have hlen := (List.getElem?_eq_some_iff.mp hx).1
    simp only [List.length_append, List.length_cons, List.length_nil] at hlen
    have : r = τ.heap.length := by omega
    subst this
    simp at hx
    exact hx ▸ ho

theorem append_pre (o : Obj V) (r : Nat) (x : Obj V) (h : τ.heap[r]? = some x) : (τ.heap ++ [o])[r]? = some x := by
  rw [List.getElem?_append_left (List.getElem?_eq_some_iff.mp h).1]; exact h

/-- A dictionary state gets a dictionary of its own. -/
theorem Grow.setDict (W : Grow C σ τ a G L) (hC : Declared C) {n : Nat} {df : Def V} {d : Dict String V}
    (hn : a.attr.get? n = none) (hdf : C.states.get? n = some df) (hk : df.kind = .dict) (hd : d.keys.Nodup)
    (hG : G n = some (.dict d)) (hL : ∀ q, ¬ L n q) :
    (d.all (fun p => df.okVal p.2) = true → ∃ τ' a', Verif.Proxy.setDict df τ n d a = some (τ', a') ∧ Grow C σ τ' a' G L ∧
      a'.attr = a.attr.set n τ.heap.length) ∧
    (d.all (fun p => df.okVal p.2) = false → Verif.Proxy.setDict df τ n d a = none) := by
  constructor
  · intro ht
    refine ⟨{ τ with heap := τ.heap ++ [.dict d] },
      recordAll df τ.now n d { a with attr := a.attr.set n τ.heap.length }, ?_, ?_, ?_⟩
    · unfold Verif.Proxy.setDict
      rw [Grow.no_has hn, fill_nil df d hd, if_pos ht]
      rfl
    · exact W.add (τ' := { τ with heap := τ.heap ++ [.dict d] }) rfl (append_pre _) (append_wf W.wf hd) hC (o := .dict d) hn hdf
        (W.not_new le_rfl) (by simp) hk hG (Or.inl ⟨W.ge, hL⟩)
    · rw [recordAll_attr]
  · intro ht
    unfold Verif.Proxy.setDict
    have hf : ¬ (d.all (fun p => df.okVal p.2) = true) := fun h => by rw [ht] at h; cases h
    rw [Grow.no_has hn, fill_nil df d hd, if_neg hf]
    rfl

/-- A dataclass state gets the object. -/
theorem Grow.setData (W : Grow C σ τ a G L) (hC : Declared C) {n r c : Nat} {df : Def V} {d : Dict String V}
    (hn : a.attr.get? n = none) (hdf : C.states.get? n = some df) (hk : df.kind = .data)
    (hr : τ.heap[r]? = some (.data c d)) (hG : G n = some (.data c d)) (hu : ∀ m, a.attr.get? m ≠ some r)
    (hl : (σ.heap.length ≤ r ∧ ∀ q, ¬ L n q) ∨ L n r) :
    (df.okCls (some c) = true → ∃ a', Verif.Proxy.setData df τ n r a = some (τ, a') ∧ Grow C σ τ a' G L ∧
      a'.attr = a.attr.set n r) ∧
    (df.okCls (some c) = false → Verif.Proxy.setData df τ n r a = none) := by
  constructor
  · intro ht
    refine ⟨recordAll df τ.now n d { a with attr := a.attr.set n r }, ?_, ?_, ?_⟩
    · unfold Verif.Proxy.setData
      rw [Grow.no_has hn, hr]
      simp [ht]
    · exact W.add (τ' := τ) rfl (fun _ _ h => h) W.wf hC (o := .data c d) hn hdf hu hr ⟨hk, ht⟩ hG hl
    · rw [recordAll_attr]
  · intro ht
    unfold Verif.Proxy.setData
    rw [Grow.no_has hn, hr]
    simp [ht]

/-- What an argument refers to is not changed by making the actor. -/
theorem Grow.look (W : Grow C σ τ a G L) (R : Rel C σ s own) (x : Arg) : Verif.Proxy.look τ x = Verif.Proxy.look σ x := by
  have hmine : τ.mine = σ.mine := by rw [W.frame]
  have hpx : τ.px = σ.px := by rw [W.frame]
  cases x with
  | mine h =>
    simp only [Verif.Proxy.look, hmine]
    cases hr : σ.mine[h]? with
    | none => rfl
    | some r =>
      obtain ⟨x, hx⟩ := some_of_len R.handl hr
      have H := R.hand h r x hr hx
      have : ∃ o, σ.heap[r]? = some o := by
        cases x with
        | own o => exact ⟨o, H.1⟩
        | of i n =>
          obtain ⟨a', h1, h2⟩ := H
          obtain ⟨b, hb⟩ := some_of_len R.len h1
          obtain ⟨-, o, -, h3, -⟩ := (R.actor i a' b h1 hb).ref n r h2
          exact ⟨o, h3⟩
      obtain ⟨o, ho⟩ := this
      simp only [Option.bind_some]
      rw [ho, W.pre r o ho]
  | proxy p =>
    simp only [Verif.Proxy.look, hpx]
    cases hr : σ.px[p]? with
    | none => rfl
    | some x =>
      obtain ⟨-, -, a', h1, h2⟩ := R.px p x hr
      obtain ⟨b, hb⟩ := some_of_len R.len h1
      obtain ⟨-, o, -, h3, -⟩ := (R.actor _ a' b h1 hb).ref _ _ h2
      simp only [Option.bind_some]
      rw [h3, W.pre _ o h3]

/-- The old addresses a new actor may have: those of objects given for its dataclass states. -/
def gives (C : Cfg V) (σ : St V) (args : Dict Nat Arg) (n r : Nat) : Prop :=
  ∃ h df, args.get? n = some (.mine h) ∧ C.states.get? n = some df ∧ df.kind = .data ∧ σ.mine[h]? = some r

/-- A state is given, and suitably. -/
def good (C : Cfg V) (s : Spec.St V) (args : Dict Nat Arg) (n : Nat) : Prop :=
  ∃ df o, C.states.get? n = some df ∧ Spec.given C s args n = some o ∧ suits df o = true

/-- One state of the constructor. -/
theorem Grow.setArg (R : Rel C σ s own) (hC : Declared C) {args : Dict Nat Arg} (hF : Spec.Fine C s (.build args))
    (W : Grow C σ τ a (Spec.given C s args) (gives C σ args)) {n : Nat} {x : Arg} {df : Def V} (hn : a.attr.get? n = none)
    (hx : args.get? n = some x) (hdf : C.states.get? n = some df) :
    (good C s args n ∧ ∃ τ' a' r, Verif.Proxy.setArg df τ n x a = some (τ', a') ∧
      Grow C σ τ' a' (Spec.given C s args) (gives C σ args) ∧ a'.attr = a.attr.set n r) ∨
    (¬ good C s args n ∧ Verif.Proxy.setArg df τ n x a = none) := by
  have hgiven : Spec.given C s args n = (Verif.Proxy.look σ x).map Prod.snd := by
    simp only [Spec.given, hdf, hx, Option.bind_some]
    exact R.arg x
  have hgood : good C s args n ↔ ∃ o, (Verif.Proxy.look σ x).map Prod.snd = some o ∧ suits df o = true := by
    constructor
    · rintro ⟨dg, o, h1, h2, h3⟩
      rw [hdf] at h1
      obtain rfl := Option.some.inj h1
      exact ⟨o, by rw [← hgiven]; exact h2, h3⟩
    · rintro ⟨o, h2, h3⟩
      exact ⟨df, o, hdf, by rw [hgiven]; exact h2, h3⟩
  unfold Verif.Proxy.setArg
  rw [W.look R x]
  rcases hlook : Verif.Proxy.look σ x with _ | ⟨r, o⟩
  · refine Or.inr ⟨?_, rfl⟩
    rw [hgood, hlook]; simp
  · rw [hlook] at hgood hgiven
    simp only [Option.map_some, Option.some.injEq, exists_eq_left'] at hgood hgiven
    rw [hgood]
    have hor : σ.heap[r]? = some o := by
      cases x with
      | mine h =>
        simp only [Verif.Proxy.look] at hlook
        obtain ⟨r', h1, h2⟩ := Option.bind_eq_some_iff.mp hlook
        obtain ⟨o', h3, h4⟩ := Option.map_eq_some_iff.mp h2
        injection h4 with h5 h6
        subst h5; subst h6; exact h3
      | proxy p =>
        simp only [Verif.Proxy.look] at hlook
        obtain ⟨r', h1, h2⟩ := Option.bind_eq_some_iff.mp hlook
        obtain ⟨o', h3, h4⟩ := Option.map_eq_some_iff.mp h2
        injection h4 with h5 h6
        subst h5; subst h6; exact h3
    cases hk : df.kind with
    | dict =>
      cases o with
      | data c d => refine Or.inr ⟨by simp [suits, hk], rfl⟩
      | dict d =>
        obtain ⟨h1, h2⟩ := W.setDict hC hn hdf hk (R.wf r _ hor) hgiven (by
          rintro q ⟨h, dg, -, h1, h2, -⟩
          rw [hdf] at h1
          obtain rfl := Option.some.inj h1
          rw [hk] at h2; cases h2)
        cases ht : d.all (fun p => df.okVal p.2) with
        | true =>
          obtain ⟨τ', a', h3, h4, h5⟩ := h1 ht
          exact Or.inl ⟨by simp [suits, hk, List.all_eq_true] at ht ⊢; exact ht, τ', a', _, h3, h4, h5⟩
        | false =>
          exact Or.inr ⟨by simp only [suits, ht]; simp, h2 ht⟩
    | data =>
      obtain ⟨h, c, d, rfl, hh⟩ := hF.2.1 n x df hx hdf hk
      simp only [Verif.Proxy.look] at hlook
      obtain ⟨r', h1, h2⟩ := Option.bind_eq_some_iff.mp hlook
      obtain ⟨o', h3, h4⟩ := Option.map_eq_some_iff.mp h2
      injection h4 with h5 h6
      subst h5
      obtain ⟨h7, h8⟩ := R.hand h r' _ h1 hh
      rw [hor] at h7
      obtain rfl := Option.some.inj h7
      have hu : ∀ m, a.attr.get? m ≠ some r' := by
        intro m hm
        obtain ⟨-, dg, -, h9, -, -, ⟨h10, -⟩ | ⟨h', dg', h11, h12, h13, h14⟩⟩ := W.val m r' hm
        · have := (List.getElem?_eq_some_iff.mp hor).1
          omega
        · obtain ⟨h0, c', d', he, hh'⟩ := hF.2.1 m _ dg' h11 h12 h13
          obtain rfl : h' = h0 := by cases he; rfl
          have h15 := (R.hand h' r' _ h14 hh').2
          rw [h8] at h15
          injection h15 with h15
          injection h15 with h15
          subst h15
          have := hF.2.2 n m h df dg' hx hdf hk h11 h12 h13
          subst this
          rw [hn] at hm; cases hm
      obtain ⟨h9, h10⟩ := W.setData (r := r') hC hn hdf hk (W.pre _ _ hor) hgiven hu (Or.inr ⟨h, df, hx, hdf, hk, h1⟩)
      cases ht : df.okCls (some c) with
      | true =>
        obtain ⟨a', h11, h12, h13⟩ := h9 ht
        exact Or.inl ⟨by simp [suits, hk, ht], τ, a', r', h11, h12, h13⟩
      | false => exact Or.inr ⟨by simp [suits, ht], h10 ht⟩

/-- The loop over the arguments. -/
theorem Grow.setAll (R : Rel C σ s own) (hC : Declared C) {args : Dict Nat Arg} (hF : Spec.Fine C s (.build args)) :
    ∀ (l : List (Nat × Arg)) (τ : St V) (a : Actor V), Grow C σ τ a (Spec.given C s args) (gives C σ args) →
      (l.map (·.1)).Nodup → (∀ p ∈ l, args.get? p.1 = some p.2) → (∀ p ∈ l, a.attr.get? p.1 = none) →
      ((∀ p ∈ l, good C s args p.1) ∧ ∃ τ' a', Verif.Proxy.setAll C l τ a = some (τ', a') ∧
        Grow C σ τ' a' (Spec.given C s args) (gives C σ args) ∧
        ∀ n, (a'.attr.get? n).isSome = true ↔ (a.attr.get? n).isSome = true ∨ n ∈ l.map (·.1)) ∨
      ((∃ p ∈ l, ¬ good C s args p.1) ∧ Verif.Proxy.setAll C l τ a = none) := by
  intro l
  induction l with
  | nil => intro τ a W _ _ _; exact Or.inl ⟨by simp, τ, a, rfl, W, by simp⟩
  | cons p l ih =>
    obtain ⟨n, x⟩ := p
    intro τ a W hnd hargs hnone
    simp only [List.map_cons, List.nodup_cons] at hnd
    unfold Verif.Proxy.setAll
    cases hdf : C.states.get? n with
    | none =>
      refine Or.inr ⟨⟨(n, x), List.mem_cons_self .., ?_⟩, rfl⟩
      rintro ⟨df, o, h1, -⟩
      rw [hdf] at h1; cases h1
    | some df =>
      have hx := hargs (n, x) (List.mem_cons_self ..)
      have hn := hnone (n, x) (List.mem_cons_self ..)
      rcases W.setArg R hC hF hn hx hdf with ⟨hg, τ', a', r, h1, h2, h3⟩ | ⟨hg, h1⟩
      · simp only [h1]
        rcases ih τ' a' h2 hnd.2 (fun p hp => hargs p (List.mem_cons_of_mem _ hp)) (by
          intro p hp
          rw [h3, Dict.get?_set, if_neg]
          · exact hnone p (List.mem_cons_of_mem _ hp)
          · rintro rfl; exact hnd.1 (List.mem_map_of_mem hp)) with ⟨hall, τ2, a2, h4, h5, h6⟩ | ⟨⟨p, hp, hb⟩, h4⟩
        · refine Or.inl ⟨?_, τ2, a2, h4, h5, ?_⟩
          · intro p hp
            rcases List.mem_cons.mp hp with rfl | hp
            · exact hg
            · exact hall p hp
          · intro m
            rw [h6 m, h3, Dict.get?_set]
            by_cases hm : n = m
            · subst hm; simp
            · simp [hm, Ne.symm hm]
        · exact Or.inr ⟨⟨p, List.mem_cons_of_mem _ hp, hb⟩, h4⟩
      · refine Or.inr ⟨⟨(n, x), List.mem_cons_self .., hg⟩, ?_⟩
        simp only [h1]

theorem complete_iff (hC : Declared C) (s : Spec.St V) (args : Dict Nat Arg) : Spec.complete C s args = true ↔
    (∀ n df, C.states.get? n = some df → ∃ o, Spec.given C s args n = some o ∧ suits df o = true) ∧
    ∀ p ∈ args, (C.states.get? p.1).isSome = true := by
  unfold Spec.complete
  rw [Bool.and_eq_true, List.all_eq_true, List.all_eq_true]
  refine and_congr ?_ Iff.rfl
  constructor
  · intro h n df hn
    have := h (n, df) (Dict.mem_of_get? hn)
    simp only at this
    cases hg : Spec.given C s args n with
    | none => rw [hg] at this; cases this
    | some o => rw [hg] at this; exact ⟨o, rfl, this⟩
  · intro h p hp
    obtain ⟨o, h1, h2⟩ := h p.1 p.2 (Dict.get?_of_mem hC.1 hp)
    simp only [h1, h2]

/-- Building an actor. -/
theorem Rel.build (R : Rel C σ s own) (hC : Declared C) {args : Dict Nat Arg} (hF : Spec.Fine C s (.build args)) :
    (Verif.Proxy.build C σ args).2 = (Spec.build C s args).2 ∧
    ∃ own', Rel C (Verif.Proxy.build C σ args).1 (Spec.build C s args).1 own' := by
  have hargs : ∀ p ∈ args, args.get? p.1 = some p.2 := fun p hp => Dict.get?_of_mem hF.1 hp
  unfold Verif.Proxy.build Spec.build
  rcases Grow.setAll R hC hF args σ fresh (Grow.init R.wf) hF.1 hargs (fun p _ => rfl) with
    ⟨hall, τ, a, h1, W, hdom⟩ | ⟨⟨p, hp, hb⟩, h1⟩
  · have hact : τ.actors = σ.actors := by rw [W.frame]
    have hdom' : ∀ n, (a.attr.get? n).isSome = true ↔ n ∈ args.keys := by
      intro n
      rw [hdom n]
      simp [fresh, Dict.keys]
    simp only [h1]
    by_cases hst : C.states.all (fun p => a.attr.has p.1) = true
    · have hfull : ∀ n df, C.states.get? n = some df → ∃ r, a.attr.get? n = some r := by
        intro n df hn
        have := List.all_eq_true.mp hst (n, df) (Dict.mem_of_get? hn)
        exact Option.isSome_iff_exists.mp this
      have hcomp : Spec.complete C s args = true := by
        rw [complete_iff hC]
        constructor
        · intro n df hn
          obtain ⟨r, hr⟩ := hfull n df hn
          have : n ∈ args.keys := (hdom' n).mp (by rw [hr]; rfl)
          obtain ⟨p, hp, rfl⟩ := List.mem_map.mp this
          obtain ⟨dg, o, h2, h3, h4⟩ := hall p hp
          rw [hn] at h2
          obtain rfl := Option.some.inj h2
          exact ⟨o, h3, h4⟩
        · intro p hp
          obtain ⟨dg, o, h2, h3, h4⟩ := hall p hp
          rw [h2]; rfl
      rw [if_pos hcomp, if_neg (by simp [hst])]
      refine ⟨by simp [hact, R.len], _, R.grow W hfull ?_ ?_ ?_ ?_⟩
      · intro n hn
        rw [hdom']
        simp only [Spec.given] at hn
        split at hn
        · cases hn
        · by_contra hne
          rw [Dict.get?_eq_none_iff.mpr hne] at hn
          cases hn
      · rintro n r - ⟨h, df, h2, h3, h4, h5⟩
        obtain ⟨h', c, d, he, hh⟩ := hF.2.1 n _ df h2 h3 h4
        obtain rfl : h = h' := by cases he; rfl
        exact ⟨h, (R.hand h r _ h5 hh).2⟩
      · simp
      · intro h r x x' hr hx hx'
        rw [List.getElem?_mapIdx, hx] at hx'
        obtain rfl := Option.some.inj hx'
        simp only [Spec.handOver]
        cases hf : args.find? (fun p => match p.2, C.states.get? p.1 with
            | .mine h', some df => decide (h' = h ∧ df.kind = .data) | _, _ => false) with
        | none =>
          refine Or.inl ⟨rfl, ?_⟩
          rintro o rfl n hn
          obtain ⟨h2, h3⟩ := R.hand h r _ hr hx
          obtain ⟨-, -, -, -, -, -, ⟨h4, -⟩ | ⟨h', df, h5, h6, h7, h8⟩⟩ := W.val n r hn
          · have := (List.getElem?_eq_some_iff.mp h2).1
            omega
          · obtain ⟨h0, c, d, he, hh⟩ := hF.2.1 n _ df h5 h6 h7
            obtain rfl : h' = h0 := by cases he; rfl
            have h9 := (R.hand h' r _ h8 hh).2
            rw [h3] at h9
            injection h9 with h9
            injection h9 with h9
            subst h9
            have := List.find?_eq_none.mp hf (n, .mine h) (Dict.mem_of_get? h5)
            simp [h6, h7] at this
        | some p =>
          right
          have hp := List.mem_of_find?_eq_some hf
          have h2 := List.find?_some hf
          have h3 := hargs p hp
          obtain ⟨n, y⟩ := p
          cases y with
          | proxy q => simp at h2
          | mine h' =>
            cases hdf : C.states.get? n with
            | none => simp [hdf] at h2
            | some df =>
              simp only [hdf, decide_eq_true_eq] at h2
              obtain ⟨rfl, hk⟩ := h2
              refine ⟨n, by rw [R.len], ?_⟩
              obtain ⟨r', hr'⟩ := hfull n df hdf
              obtain ⟨-, -, -, -, -, -, ⟨-, h4⟩ | ⟨h'', dg, h5, h6, h7, h8⟩⟩ := W.val n r' hr'
              · exact absurd ⟨h', df, h3, hdf, hk, hr⟩ (h4 r)
              · have h3' : args.get? n = some (.mine h') := h3
                rw [h3'] at h5
                obtain rfl : h' = h'' := by cases h5; rfl
                rw [hr] at h8
                obtain rfl := Option.some.inj h8
                exact hr'
    · have hcomp : ¬ Spec.complete C s args = true := by
        rw [complete_iff hC]
        rintro ⟨h2, -⟩
        apply hst
        rw [List.all_eq_true]
        intro p hp
        obtain ⟨o, h3, -⟩ := h2 p.1 p.2 (Dict.get?_of_mem hC.1 hp)
        show (a.attr.get? p.1).isSome = true
        rw [hdom']
        by_contra hne
        simp only [Spec.given] at h3
        split at h3
        · cases h3
        · rw [Dict.get?_eq_none_iff.mpr hne] at h3
          cases h3
      rw [if_neg hcomp, if_pos (by simpa using hst)]
      exact ⟨rfl, own, R⟩
  · have hcomp : ¬ Spec.complete C s args = true := by
      rw [complete_iff hC]
      rintro ⟨h2, h3⟩
      apply hb
      obtain ⟨df, hdf⟩ := Option.isSome_iff_exists.mp (h3 p hp)
      obtain ⟨o, h4, h5⟩ := h2 p.1 df hdf
      exact ⟨df, o, hdf, h4, h5⟩
    rw [if_neg hcomp]
    simp only [h1]
    exact ⟨trivial, own, R⟩

/-- One more object in the heap. -/
theorem Grow.extend (W : Grow C σ τ a G L) {o : Obj V} (ho : ObjOK C o) : Grow C σ { τ with heap := τ.heap ++ [o] } a G L where
  frame := by conv_lhs => rw [W.frame]
  pre := fun r x h => append_pre o r x (W.pre r x h)
  wfa := W.wfa
  inj := W.inj
  val := by
    intro n r h
    obtain ⟨x, df, h1, h2⟩ := W.val n r h
    exact ⟨x, df, append_pre o r x h1, h2⟩
  hist := W.hist
  wf := append_wf W.wf ho

/-- The states of a clone. -/
theorem Grow.cloneAll (R : Rel C σ s own) (hC : Declared C) {i : Nat} {src : Actor V} {b : Spec.Actor V}
    (hs : σ.actors[i]? = some src) (hb : s.actors[i]? = some b) (hF : Spec.Fine C s (.clone i)) :
    ∀ (l : List (Nat × Def V)) (τ : St V) (a : Actor V), Grow C σ τ a b.obj (fun _ _ => False) →
      (l.map (·.1)).Nodup → (∀ p ∈ l, C.states.get? p.1 = some p.2) → (∀ p ∈ l, a.attr.get? p.1 = none) →
      ∃ τ' a', Verif.Proxy.cloneAll C src l τ a = some (τ', a') ∧ Grow C σ τ' a' b.obj (fun _ _ => False) ∧
        ∀ n, (a'.attr.get? n).isSome = true ↔ (a.attr.get? n).isSome = true ∨ n ∈ l.map (·.1) := by
  have A := R.actor i src b hs hb
  intro l
  induction l with
  | nil => intro τ a W _ _ _; exact ⟨τ, a, rfl, W, by simp⟩
  | cons p l ih =>
    obtain ⟨n, df⟩ := p
    intro τ a W hnd hst hnone
    simp only [List.map_cons, List.nodup_cons] at hnd
    have hdf : C.states.get? n = some df := hst (n, df) (List.mem_cons_self ..)
    have hn : a.attr.get? n = none := hnone (n, df) (List.mem_cons_self ..)
    obtain ⟨r, hr⟩ := A.full n df hdf
    obtain ⟨-, o, dg, h1, h2, h3⟩ := A.ref n r hr
    rw [hdf] at h2
    obtain rfl := Option.some.inj h2
    have hobj : b.obj n = some o := by rw [A.obj n, hr]; exact h1
    have hone : ∃ τ' a' q, Verif.Proxy.cloneState C τ n r df a = some (τ', a') ∧
        Grow C σ τ' a' b.obj (fun _ _ => False) ∧ a'.attr = a.attr.set n q := by
      unfold Verif.Proxy.cloneState
      rw [W.pre r o h1]
      cases o with
      | dict d =>
        have hk : df.kind = .dict := h3
        simp only [hk]
        obtain ⟨h4, -⟩ := W.setDict hC hn hdf hk (R.wf r _ h1) hobj (fun _ h => h)
        obtain ⟨τ', a', h5, h6, h7⟩ := h4 (List.all_eq_true.mpr ((hF b n df hb hdf).1 d hobj))
        exact ⟨τ', a', _, h5, h6, h7⟩
      | data c d =>
        obtain ⟨hk, hcls⟩ := h3
        simp only [hk]
        rw [replaced_self _ d ((hF b n df hb hdf).2 c d hobj)]
        have W' := W.extend (R.wf r _ h1)
        obtain ⟨h4, -⟩ := W'.setData (r := τ.heap.length) hC hn hdf hk (by simp) hobj (W.not_new le_rfl)
          (Or.inl ⟨W.ge, fun _ h => h⟩)
        obtain ⟨a', h5, h6, h7⟩ := h4 hcls
        exact ⟨_, a', _, h5, h6, h7⟩
    obtain ⟨τ', a', q, h4, h5, h6⟩ := hone
    obtain ⟨τ2, a2, h7, h8, h9⟩ := ih τ' a' h5 hnd.2 (fun p hp => hst p (List.mem_cons_of_mem _ hp)) (by
      intro p hp
      rw [h6, Dict.get?_set, if_neg]
      · exact hnone p (List.mem_cons_of_mem _ hp)
      · rintro rfl; exact hnd.1 (List.mem_map_of_mem hp))
    refine ⟨τ2, a2, ?_, h8, ?_⟩
    · unfold Verif.Proxy.cloneAll
      simp only [hr, h4]
      exact h7
    · intro m
      rw [h9 m, h6, Dict.get?_set]
      by_cases hm : n = m
      · subst hm; simp
      · simp [hm, Ne.symm hm]

/-- Cloning an actor. -/
theorem Rel.clone (R : Rel C σ s own) (hC : Declared C) {i : Nat} (hF : Spec.Fine C s (.clone i)) :
    (Verif.Proxy.clone C σ i).2 = (Spec.clone C s i).2 ∧
    ∃ own', Rel C (Verif.Proxy.clone C σ i).1 (Spec.clone C s i).1 own' := by
  unfold Verif.Proxy.clone Spec.clone
  cases hs : σ.actors[i]? with
  | none => rw [none_of_len R.len hs]; exact ⟨rfl, own, R⟩
  | some src =>
    obtain ⟨b, hb⟩ := some_of_len R.len hs
    rw [hb]
    have A := R.actor i src b hs hb
    obtain ⟨τ, a, h1, W, hdom⟩ := Grow.cloneAll R hC hs hb hF C.states σ fresh (Grow.init R.wf) hC.1
      (fun p hp => Dict.get?_of_mem hC.1 hp) (fun p _ => rfl)
    have hact : τ.actors = σ.actors := by rw [W.frame]
    have hdom' : ∀ n, (a.attr.get? n).isSome = true ↔ n ∈ C.states.keys := by
      intro n
      rw [hdom n]
      simp [fresh, Dict.keys]
    simp only [h1]
    refine ⟨by simp [hact, R.len], _, R.grow W ?_ ?_ ?_ rfl ?_⟩
    · intro n df hn
      exact Option.isSome_iff_exists.mp ((hdom' n).mpr (List.mem_map_of_mem (Dict.mem_of_get? hn)))
    · intro n hn
      rw [hdom']
      rw [A.obj n] at hn
      cases hr : src.attr.get? n with
      | none => rw [hr] at hn; cases hn
      | some r =>
        obtain ⟨-, -, df, -, h2, -⟩ := A.ref n r hr
        exact List.mem_map_of_mem (Dict.mem_of_get? h2)
    · rintro n r - ⟨⟩
    · intro h r x x' hr hx hx'
      rw [hx] at hx'
      obtain rfl := Option.some.inj hx'
      refine Or.inl ⟨rfl, ?_⟩
      rintro o rfl n hn
      obtain ⟨h2, -⟩ := R.hand h r _ hr hx
      obtain ⟨-, -, -, -, -, -, ⟨h4, -⟩ | hf⟩ := W.val n r hn
      swap
      · exact hf
      have := (List.getElem?_eq_some_iff.mp h2).1
      omega

end Verif.Proxy
