import Verif.Proxy.Rel

/-!
# New actors

Building and cloning give each state an address that nobody else has: a new one, or that of an object the program gives
away.
-/

namespace Verif.Proxy

open Spec (Declared put putObj same sameObj note suits)

variable {V : Type} [DecidableEq V]

/-- An actor being made: `G` the values of its states, `L` the old addresses they may have. -/
structure Grow (C : Cfg V) (σ τ : St V) (a : Actor V) (G : Nat → Option (Obj V)) (L : Nat → Nat → Prop) : Prop where
  frame : τ = { σ with heap := τ.heap }
  pre : ∀ (r : Nat) (o : Obj V), σ.heap[r]? = some o → τ.heap[r]? = some o
  wfa : a.attr.keys.Nodup
  inj : ∀ n m r, a.attr.get? n = some r → a.attr.get? m = some r → n = m
  val : ∀ n r, a.attr.get? n = some r → ∃ o df, τ.heap[r]? = some o ∧ C.states.get? n = some df ∧ KindOK df o ∧
    G n = some o ∧ ((σ.heap.length ≤ r ∧ ∀ q, ¬ L n q) ∨ L n r)
  hist : ∀ n k, a.hist n k = (Spec.born C σ.now fun n => if (a.attr.get? n).isSome then G n else none).hist n k
  wf : ∀ (r : Nat) (o : Obj V), τ.heap[r]? = some o → ObjOK C o

variable {C : Cfg V} {σ τ : St V} {a : Actor V} {G : Nat → Option (Obj V)} {L : Nat → Nat → Prop}

theorem Grow.init (h : ∀ (r : Nat) (o : Obj V), σ.heap[r]? = some o → ObjOK C o) : Grow C σ σ fresh G L where
  frame := rfl
  pre := fun _ _ h => h
  wfa := by simp [fresh, Dict.keys]
  inj := by intro n m r h; simp [fresh] at h
  val := by intro n r h; simp [fresh] at h
  hist := by
    intro n k
    simp only [fresh, Spec.born, Dict.get?_nil, Option.isSome_none]
    split
    · rename_i h; cases h
    · rfl
  wf := h

/-- One more state. -/
theorem Grow.add (W : Grow C σ τ a G L) {τ' : St V} (hf : τ' = { τ with heap := τ'.heap })
    (hpre : ∀ (r : Nat) (o : Obj V), τ.heap[r]? = some o → τ'.heap[r]? = some o)
    (hwf : ∀ (r : Nat) (o : Obj V), τ'.heap[r]? = some o → ObjOK C o) (hC : Declared C)
    {n r : Nat} {df : Def V} {o : Obj V} (hn : a.attr.get? n = none) (hdf : C.states.get? n = some df)
    (hr : ∀ m, a.attr.get? m ≠ some r) (ho : τ'.heap[r]? = some o) (hk : KindOK df o) (hG : G n = some o)
    (hl : (σ.heap.length ≤ r ∧ ∀ q, ¬ L n q) ∨ L n r) :
    Grow C σ τ' (recordAll df τ.now n (entries o) { a with attr := a.attr.set n r }) G L := by
  have hnow : τ.now = σ.now := by rw [W.frame]
  have hok := hwf r o ho
  have h0 : ∀ k, a.hist n k = [] := by
    intro k
    rw [W.hist n k]
    simp only [Spec.born, hn, Option.isSome_none]
    rw [hdf]
    rfl
  refine ⟨?_, fun q x h => hpre q x (W.pre q x h), ?_, ?_, ?_, ?_, hwf⟩
  · rw [hf, W.frame]
  · rw [recordAll_attr]; exact Dict.WF_set W.wfa n r
  · intro m m' q h1 h2
    rw [recordAll_attr] at h1 h2
    simp only [Dict.get?_set] at h1 h2
    by_cases e1 : n = m <;> by_cases e2 : n = m'
    · rw [← e1, ← e2]
    · rw [if_pos e1] at h1; rw [if_neg e2] at h2
      injection h1 with h1; subst h1
      exact absurd h2 (hr m')
    · rw [if_neg e1] at h1; rw [if_pos e2] at h2
      injection h2 with h2; subst h2
      exact absurd h1 (hr m)
    · rw [if_neg e1] at h1; rw [if_neg e2] at h2
      exact W.inj m m' q h1 h2
  · intro m q h1
    rw [recordAll_attr] at h1
    simp only [Dict.get?_set] at h1
    by_cases e1 : n = m
    · rw [if_pos e1] at h1
      injection h1 with h1; subst h1; subst e1
      exact ⟨o, df, ho, hdf, hk, hG, hl⟩
    · rw [if_neg e1] at h1
      obtain ⟨o', dg, h2, h3⟩ := W.val m q h1
      exact ⟨o', dg, hpre q o' h2, h3⟩
  · intro m k
    rw [recordAll_hist df τ.now n (entries o) ({ a with attr := a.attr.set n r } : Actor V) (hok.nodup hC) (fun k _ => h0 k) m k, recordAll_attr, hnow]
    simp only [Spec.born, Dict.get?_set]
    by_cases hm : n = m
    · subst hm
      simp only [if_true, Option.isSome_some, hdf, hG, true_and]
      by_cases hrec : df.recording = true
      · rw [if_pos hrec, if_pos hrec, h0 k]
        cases (entries o).get? k <;> rfl
      · rw [if_neg hrec, if_neg hrec, h0 k]
    · rw [if_neg (fun h => hm h.1.symm)]
      simp only [if_neg hm]
      exact W.hist m k

variable {s : Spec.St V} {own : Nat → Option Owner}

/-- The owners when the new actor is there. -/
def owners (own : Nat → Option Owner) (i : Nat) (a : Actor V) (r : Nat) : Option Owner :=
  match a.attr.find? fun p => p.2 == r with
  | some p => some (.state i p.1)
  | none => own r

theorem owners_new (i : Nat) (W : Grow C σ τ a G L) {n r : Nat} (h : a.attr.get? n = some r) :
    owners own i a r = some (.state i n) := by
  unfold owners
  cases hf : a.attr.find? fun p => p.2 == r with
  | none =>
    have := List.find?_eq_none.mp hf (n, r) (Dict.mem_of_get? h)
    simp at this
  | some p =>
    have h1 : p.2 = r := by simpa using List.find?_some hf
    have h2 := Dict.get?_of_mem W.wfa (List.mem_of_find?_eq_some hf : (p.1, p.2) ∈ a.attr)
    rw [h1] at h2
    simp only [W.inj p.1 n r h2 h]

theorem owners_old (i : Nat) (W : Grow C σ τ a G L) {r : Nat} (h : ∀ n, a.attr.get? n ≠ some r) : owners own i a r = own r := by
  unfold owners
  cases hf : a.attr.find? fun p => p.2 == r with
  | none => rfl
  | some p =>
    have h1 : p.2 = r := by simpa using List.find?_some hf
    have h2 := Dict.get?_of_mem W.wfa (List.mem_of_find?_eq_some hf : (p.1, p.2) ∈ a.attr)
    rw [h1] at h2
    exact absurd h2 (h p.1)

theorem Rel.grow (R : Rel C σ s own) (W : Grow C σ τ a G L)
    (full : ∀ n df, C.states.get? n = some df → ∃ r, a.attr.get? n = some r)
    (dom : ∀ n, (G n).isSome = true → (a.attr.get? n).isSome = true)
    (hL : ∀ n r, a.attr.get? n = some r → L n r → ∃ h, own r = some (.hand h))
    {hands' : List (Spec.Hand V)} (hl : hands'.length = s.hands.length)
    (hh : ∀ (h r : Nat) (x x' : Spec.Hand V), σ.mine[h]? = some r → s.hands[h]? = some x → hands'[h]? = some x' →
      (x' = x ∧ ∀ o, x = .own o → ∀ n, a.attr.get? n ≠ some r) ∨ ∃ n, x' = .of σ.actors.length n ∧ a.attr.get? n = some r) :
    Rel C { τ with actors := τ.actors ++ [a] }
      { s with actors := s.actors ++ [Spec.born C s.now G], hands := hands' } (owners own σ.actors.length a) := by
  have hG : (fun n => if (a.attr.get? n).isSome then G n else none) = G := by
    funext n
    cases h : (a.attr.get? n).isSome with
    | true => rfl
    | false =>
      cases hg : G n with
      | none => rfl
      | some o =>
        have := dom n (by rw [hg]; rfl)
        rw [h] at this; cases this
  have hact : τ.actors = σ.actors := by rw [W.frame]
  have hmine : τ.mine = σ.mine := by rw [W.frame]
  have hpx : τ.px = σ.px := by rw [W.frame]
  have hnow : τ.now = σ.now := by rw [W.frame]
  have hold : ∀ (i : Nat) (a' : Actor V), σ.actors[i]? = some a' → (σ.actors ++ [a])[i]? = some a' := by
    intro i a' h
    rw [List.getElem?_append_left (List.getElem?_eq_some_iff.mp h).1]; exact h
  have hlast : (σ.actors ++ [a])[σ.actors.length]? = some a := by simp
  refine ⟨by simpa [hnow] using R.now, by simp [hact, R.len], ?_, by simpa [hpx] using R.pxl, ?_, by simpa [hmine, hl] using R.handl,
    ?_, W.wf⟩
  · intro i a' b' ha' hb'
    simp only [hact] at ha'
    by_cases hi : i < σ.actors.length
    · rw [List.getElem?_append_left hi] at ha'
      rw [List.getElem?_append_left (R.len ▸ hi)] at hb'
      have A := R.actor i a' b' ha' hb'
      have hne : ∀ m q, a'.attr.get? m = some q → ∀ n, a.attr.get? n ≠ some q := by
        intro m q hq n hn
        obtain ⟨h1, o, df, h2, -⟩ := A.ref m q hq
        obtain ⟨-, -, -, -, -, -, ⟨hle, -⟩ | hln⟩ := W.val n q hn
        · have := (List.getElem?_eq_some_iff.mp h2).1
          omega
        · obtain ⟨h, hown⟩ := hL n q hn hln
          rw [hown] at h1; cases h1
      refine ⟨A.hist, ?_, ?_, A.full⟩
      · intro m
        rw [A.obj m]
        cases hq : a'.attr.get? m with
        | none => rfl
        | some q =>
          obtain ⟨-, o, df, h2, -⟩ := A.ref m q hq
          simp only [Option.bind_some]
          rw [h2, W.pre q o h2]
      · intro m q hq
        obtain ⟨h1, o, df, h2, h3⟩ := A.ref m q hq
        refine ⟨?_, o, df, W.pre q o h2, h3⟩
        rw [owners_old _ W (hne m q hq)]
        exact h1
    · have hlen := (List.getElem?_eq_some_iff.mp ha').1
      simp only [List.length_append, List.length_cons, List.length_nil] at hlen
      have hi' : i = σ.actors.length := by omega
      subst hi'
      rw [hlast] at ha'
      obtain rfl := Option.some.inj ha'
      have hb2 : (s.actors ++ [Spec.born C s.now G])[σ.actors.length]? = some (Spec.born C s.now G) := by
        rw [R.len]; simp
      rw [hb2] at hb'
      obtain rfl := Option.some.inj hb'
      refine ⟨?_, ?_, ?_, full⟩
      · intro n k
        rw [W.hist n k, hG, R.now]
      · intro n
        show G n = _
        cases hq : a.attr.get? n with
        | none =>
          cases hg : G n with
          | none => rfl
          | some o =>
            have := dom n (by rw [hg]; rfl)
            rw [hq] at this; cases this
        | some q =>
          obtain ⟨o, df, h1, -, -, h2, -⟩ := W.val n q hq
          simp only [Option.bind_some]
          rw [h1, h2]
      · intro n q hq
        obtain ⟨o, df, h1, h2, h3, -⟩ := W.val n q hq
        exact ⟨owners_new _ W hq, o, df, h1, h2, h3⟩
  · intro p x hx
    simp only [hpx] at hx
    obtain ⟨h1, h2, a', h3, h4⟩ := R.px p x hx
    exact ⟨h1, h2, a', by simp only [hact]; exact hold _ _ h3, h4⟩
  · intro h r x' hr hx'
    simp only [hmine] at hr
    obtain ⟨x, hx⟩ := some_of_len R.handl hr
    have H := R.hand h r x hr hx
    rcases hh h r x x' hr hx hx' with ⟨rfl, hne⟩ | ⟨n, rfl, hn⟩
    · cases x' with
      | own o =>
        exact ⟨W.pre r o H.1, by rw [owners_old _ W (hne o rfl)]; exact H.2⟩
      | of i m =>
        obtain ⟨a', h3, h4⟩ := H
        exact ⟨a', by simp only [hact]; exact hold _ _ h3, h4⟩
    · exact ⟨a, by simp only [hact]; exact hlast, hn⟩

end Verif.Proxy
