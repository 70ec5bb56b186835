import Verif.Predict.Queue

/-! # Conditions -/

namespace Verif.Predict

variable {K : Type} [Field K] [LinearOrder K] [IsStrictOrderedRing K]

mutual
/-- The conditions with their status, members first. -/
def nodes : CTree → List (Nat × CStat)
  | .leaf _ => []
  | .node id _ _ st ms => nodesL ms ++ [(id, st)]
def nodesL : List CTree → List (Nat × CStat)
  | [] => []
  | m :: ms => nodes m ++ nodesL ms
end

mutual
/-- The Waits. -/
def leaves : CTree → List Nat
  | .leaf k => [k]
  | .node _ _ _ _ ms => leavesL ms
def leavesL : List CTree → List Nat
  | [] => []
  | m :: ms => leaves m ++ leavesL ms
end

mutual
/-- When it is over. -/
def fin (due : Nat → K) : CTree → K
  | .leaf k => due k
  | .node _ all _ _ ms => agg all (finL due ms)
def finL (due : Nat → K) : List CTree → List K
  | [] => []
  | m :: ms => fin due m :: finL due ms
end

theorem finL_eq (due : Nat → K) (ms : List CTree) : finL due ms = ms.map (fin due) := by
  induction ms with
  | nil => rfl
  | cons m ms ih => rw [finL, ih]; rfl

/-- Of a condition. -/
def OkNode (now : K) (q : List (Item K)) (done : Nat → Bool) (due : Nat → K) (id : Nat) (all : Bool) (c : Nat) (st : CStat) (ms : List CTree) : Prop :=
  ms ≠ [] ∧ (st = .pending → c = ms.countP (CTree.processed done) ∧ if all then c < ms.length else c = 0) ∧
    (st = .triggered → ⟨agg all (finL due ms), false, .cond id⟩ ∈ q) ∧ (st = .processed → agg all (finL due ms) ≤ now)

mutual
/-- Conditions and Waits are as they should be at time `now`. -/
def Ok (now : K) (q : List (Item K)) (done : Nat → Bool) (due : Nat → K) : CTree → Prop
  | .leaf k => (done k = true → due k ≤ now) ∧ (done k = false → ⟨due k, false, .timeout k⟩ ∈ q)
  | .node id all c st ms => OkL now q done due ms ∧ OkNode now q done due id all c st ms
def OkL (now : K) (q : List (Item K)) (done : Nat → Bool) (due : Nat → K) : List CTree → Prop
  | [] => True
  | m :: ms => Ok now q done due m ∧ OkL now q done due ms
end

theorem OkL_mem {now : K} {q : List (Item K)} {done : Nat → Bool} {due : Nat → K} {ms : List CTree} : OkL now q done due ms ↔ ∀ m ∈ ms, Ok now q done due m := by
  induction ms with
  | nil => simp [OkL]
  | cons m ms ih => simp [OkL, ih]

theorem countP_lt {p : CTree → Bool} {ms : List CTree} (h : ms.countP p < ms.length) : ∃ m ∈ ms, p m = false := by
  by_contra hc
  push Not at hc
  exact absurd (List.countP_eq_length.2 fun m hm => by simpa using hc m hm) (by omega)

mutual
/-- As long as something is not processed, there is something in the queue that comes before its end. -/
theorem bound (now : K) (q : List (Item K)) (done : Nat → Bool) (due : Nat → K) : ∀ t, Ok now q done due t → t.processed done = false → ∃ i ∈ q, i.time ≤ fin due t
  | .leaf k, h, hp => ⟨_, h.2 hp, le_refl _⟩
  | .node id all c st ms, ⟨hL, h1, h2, h3, h4⟩, hp => by
    cases st with
    | processed => simp [CTree.processed] at hp
    | triggered => exact ⟨_, h3 rfl, le_refl _⟩
    | pending =>
      obtain ⟨hc, hs⟩ := h2 rfl
      have hb := boundL now q done due ms hL
      cases all with
      | true =>
        obtain ⟨m, hm, hpm⟩ := countP_lt (p := CTree.processed done) (ms := ms) (by simpa [hc] using hs)
        obtain ⟨i, hi, hle⟩ := hb m hm hpm
        exact ⟨i, hi, hle.trans (agg_all _ _ (by rw [finL_eq]; exact List.mem_map.2 ⟨m, hm, rfl⟩))⟩
      | false =>
        have := agg_mem false (finL due ms) (by rw [finL_eq]; simpa using h1)
        rw [finL_eq] at this
        obtain ⟨m, hm, he⟩ := List.mem_map.1 this
        have hz : c = 0 := by simpa using hs
        have hpm : m.processed done = false := by
          rw [hz] at hc
          simpa using (List.countP_eq_zero.1 hc.symm) m hm
        obtain ⟨i, hi, hle⟩ := hb m hm hpm
        refine ⟨i, hi, hle.trans ?_⟩
        rw [he, ← finL_eq]
        exact le_refl _
theorem boundL (now : K) (q : List (Item K)) (done : Nat → Bool) (due : Nat → K) : ∀ ms, OkL now q done due ms →
    ∀ m ∈ ms, m.processed done = false → ∃ i ∈ q, i.time ≤ fin due m
  | [], _ => fun _ hm => by cases hm
  | m' :: ms, h => List.forall_mem_cons.2 ⟨fun hp => bound now q done due m' h.1 hp, boundL now q done due ms h.2⟩
end

mutual
/-- What `hit` does not change. -/
theorem hit_same (x : Ent) (due : Nat → K) : ∀ t, fin due (hit x t).1 = fin due t ∧ leaves (hit x t).1 = leaves t ∧ (nodes (hit x t).1).map (·.1) = (nodes t).map (·.1) ∧
    (hit x t).2.Sublist ((nodes t).map (·.1)) ∧ ∀ y, (hit x t).1.is y = t.is y
  | .leaf k => ⟨rfl, rfl, rfl, List.Sublist.refl _, fun _ => rfl⟩
  | .node id all c st ms => by
    obtain ⟨h1, h2, h3, h4⟩ := hitL_same x due ms
    refine ⟨by simp only [hit, fin, h1], by simp only [hit, leaves, h2], by simp only [hit, nodes, List.map_append, h3, List.map_cons, List.map_nil], ?_, fun y => rfl⟩
    simp only [hit, nodes, List.map_append, List.map_cons, List.map_nil]
    refine h4.append ?_
    split
    · exact List.Sublist.refl _
    · exact List.nil_sublist _
theorem hitL_same (x : Ent) (due : Nat → K) : ∀ ms, finL due (hitL x ms).1 = finL due ms ∧ leavesL (hitL x ms).1 = leavesL ms ∧
    (nodesL (hitL x ms).1).map (·.1) = (nodesL ms).map (·.1) ∧ (hitL x ms).2.Sublist ((nodesL ms).map (·.1))
  | [] => ⟨rfl, rfl, rfl, List.Sublist.refl _⟩
  | m :: ms => by
    obtain ⟨h1, h2, h3, h4, -⟩ := hit_same x due m
    obtain ⟨g1, g2, g3, g4⟩ := hitL_same x due ms
    refine ⟨by simp only [hitL, finL, h1, g1], by simp only [hitL, leavesL, h2, g2], by simp only [hitL, nodesL, List.map_append, h3, g3], ?_⟩
    simp only [hitL, nodesL, List.map_append]
    exact h4.append g4
end

theorem hitL_map (x : Ent) (ms : List CTree) : (hitL x ms).1 = ms.map fun m => (hit x m).1 := by
  induction ms with
  | nil => rfl
  | cons m ms ih => simp only [hitL, List.map_cons, ih]

/-- What becomes of the status of a condition. -/
theorem check_stat (all : Bool) (size n c : Nat) (st : CStat) : (check all size n (c, st)).2 = st ∨ st = .pending ∧ (check all size n (c, st)).2 = .triggered := by
  induction n generalizing c st with
  | zero => exact .inl rfl
  | succ n ih =>
    unfold check
    cases st with
    | pending =>
      simp only [if_true]
      split
      · rw [check_other _ _ _ _ _ (by simp)]; simp
      · rcases ih (c + 1) .pending with h | h
        · exact .inl h
        · exact .inr ⟨trivial, h.2⟩
    | triggered => rw [if_neg (by simp), check_other _ _ _ _ _ (by simp)]; simp
    | processed => rw [if_neg (by simp), check_other _ _ _ _ _ (by simp)]; simp

mutual
/-- Triggered conditions stay so until they are processed, and those that are reported are triggered. -/
theorem hit_nodes (x : Ent) : ∀ t, (∀ id st, x = .cond id → (id, st) ∈ nodes t → st = .triggered) →
    (∀ id, x ≠ .cond id → (id, .triggered) ∈ nodes t → (id, .triggered) ∈ nodes (hit x t).1) ∧
      ∀ id ∈ (hit x t).2, (id, .triggered) ∈ nodes (hit x t).1 ∧ (id, .pending) ∈ nodes t
  | .leaf k, _ => ⟨fun _ _ h => (List.not_mem_nil h).elim, fun _ h => (List.not_mem_nil h).elim⟩
  | .node id all c st ms, hx => by
    obtain ⟨h1, h2⟩ := hitL_nodes x ms (fun i s he hm => hx i s he (by simp [nodes, hm]))
    constructor
    · intro i hi hm
      simp only [nodes, List.mem_append, List.mem_singleton] at hm
      simp only [hit, nodes, List.mem_append, List.mem_singleton]
      rcases hm with hm | hm
      · exact .inl (h1 i hi hm)
      · cases hm
        right
        rw [if_neg hi, check_other _ _ _ _ _ (by simp)]
    · intro i hi
      simp only [hit, List.mem_append] at hi
      simp only [hit, nodes, List.mem_append, List.mem_singleton]
      rcases hi with hi | hi
      · exact ⟨.inl (h2 i hi).1, .inl (h2 i hi).2⟩
      · split at hi
        · rename_i hc
          obtain ⟨rfl, hc⟩ := hc
          simp only [List.mem_singleton] at hi
          subst hi
          have hne : x ≠ .cond i := fun he => by
            have := hx i .pending he (by simp [nodes])
            cases this
          refine ⟨.inr ?_, .inr rfl⟩
          rw [if_neg hne, hc]
        · cases hi
theorem hitL_nodes (x : Ent) : ∀ ms, (∀ id st, x = .cond id → (id, st) ∈ nodesL ms → st = .triggered) →
    (∀ id, x ≠ .cond id → (id, .triggered) ∈ nodesL ms → (id, .triggered) ∈ nodesL (hitL x ms).1) ∧
      ∀ id ∈ (hitL x ms).2, (id, .triggered) ∈ nodesL (hitL x ms).1 ∧ (id, .pending) ∈ nodesL ms
  | [], _ => ⟨fun _ _ h => (List.not_mem_nil h).elim, fun _ h => (List.not_mem_nil h).elim⟩
  | m :: ms, hx => by
    obtain ⟨h1, h2⟩ := hit_nodes x m (fun i s he hm => hx i s he (by simp [nodesL, hm]))
    obtain ⟨g1, g2⟩ := hitL_nodes x ms (fun i s he hm => hx i s he (by simp [nodesL, hm]))
    constructor
    · intro i hi hm
      simp only [nodesL, List.mem_append] at hm
      simp only [hitL, nodesL, List.mem_append]
      exact hm.imp (h1 i hi) (g1 i hi)
    · intro i hi
      simp only [hitL, List.mem_append] at hi
      simp only [hitL, nodesL, List.mem_append]
      rcases hi with hi | hi
      · exact ⟨.inl (h2 i hi).1, .inl (h2 i hi).2⟩
      · exact ⟨.inr (g2 i hi).1, .inr (g2 i hi).2⟩
end

/-- The circumstances in which the first entry of the queue is processed. -/
structure Turn (now : K) (i : Item K) (q q' : List (Item K)) (done done' : Nat → Bool) (due : Nat → K) (trig : List Nat) : Prop where
  first : ∀ j ∈ q, i.time ≤ j.time
  later : now ≤ i.time
  only : ∀ j ∈ q, j.ent ≠ i.ent
  done' : ∀ k, done' k = (done k || decide (i.ent = .timeout k))
  wait : ∀ k, i.ent = .timeout k → done k = false ∧ due k = i.time
  keep : ∀ j ∈ q, j ∈ q'
  add : ∀ id ∈ trig, ⟨i.time, false, .cond id⟩ ∈ q'

mutual
theorem hit_ok (now : K) (i : Item K) (q q' : List (Item K)) (done done' : Nat → Bool) (due : Nat → K) : ∀ t, Turn now i q q' done done' due (hit i.ent t).2 →
    Ok now (i :: q) done due t → (∀ id st, i.ent = .cond id → (id, st) ∈ nodes t → st = .triggered) →
    Ok i.time q' done' due (hit i.ent t).1 ∧ ((hit i.ent t).1.processed done' = (t.processed done || t.is i.ent)) ∧
      (t.is i.ent = true → t.processed done = false ∧ fin due t = i.time) ∧ (t.processed done = true → fin due t ≤ now)
  | .leaf k, T, h, _ => by
    refine ⟨⟨fun hd => ?_, fun hd => ?_⟩, by simp [hit, CTree.processed, CTree.is, T.done'], fun hk => T.wait k (by simpa [CTree.is] using hk), fun hp => h.1 hp⟩
    · rw [T.done' k] at hd
      rcases Bool.or_eq_true _ _ ▸ hd with hd | hd
      · exact (h.1 hd).trans T.later
      · exact (T.wait k (by simpa using hd)).2.le
    · rw [T.done' k] at hd
      simp only [Bool.or_eq_false_iff, decide_eq_false_iff_not] at hd
      rcases List.mem_cons.1 (h.2 hd.1) with he | he
      · exact absurd (by rw [← he]) hd.2
      · exact T.keep _ he
  | .node id all c st ms, T, ⟨hL, h1, h2, h3, h4⟩, hx => by
    have T' : Turn now i q q' done done' due (hitL i.ent ms).2 := ⟨T.first, T.later, T.only, T.done', T.wait, T.keep, fun j hj => T.add j (by simp [hit, hj])⟩
    obtain ⟨gL, gm⟩ := hitL_ok now i q q' done done' due ms T' hL (fun j s he hm => hx j s he (by simp [nodes, hm]))
    have hfin := (hitL_same i.ent due ms).1
    have hself : i.ent = .cond id → st = .triggered := fun he => hx id st he (by simp [nodes])
    have hent : i.ent = .cond id → agg all (finL due ms) = i.time := fun he => by
      rcases List.mem_cons.1 (h3 (hself he)) with hi | hi
      · rw [← hi]
      · exact absurd he.symm (T.only _ hi)
    have hcount : (hitL i.ent ms).1.countP (CTree.processed done') = ms.countP (CTree.processed done) + ms.countP (CTree.is i.ent) := by
      rw [hitL_map, List.countP_map]
      clear h1 h2 h3 h4 hx T T' gL hfin hself hent hL
      induction ms with
      | nil => rfl
      | cons m ms ih =>
        have ih := ih (fun m hm => gm m (List.mem_cons_of_mem _ hm))
        obtain ⟨e1, e2, -⟩ := gm m (List.mem_cons_self ..)
        simp only [List.countP_cons, Function.comp_apply, e1, ih]
        cases hb : m.is i.ent with
        | false => simp; omega
        | true => rw [(e2 hb).1]; simp; omega
    have hle : ms.countP (CTree.processed done) + ms.countP (CTree.is i.ent) ≤ ms.length := by
      rw [← hcount]
      refine (List.countP_le_length).trans ?_
      rw [hitL_map, List.length_map]
    have hpend : st = .pending → i.time ≤ agg all (finL due ms) := fun hs => by
      obtain ⟨j, hj, hjl⟩ := bound now (i :: q) done due (.node id all c st ms) ⟨hL, h1, h2, h3, h4⟩ (by simp [CTree.processed, hs])
      rcases List.mem_cons.1 hj with rfl | hj
      · exact hjl
      · exact (T.first j hj).trans hjl
    refine ⟨⟨gL, ?_⟩, ?_, ?_, ?_⟩
    · refine ⟨?_, ?_, ?_, ?_⟩
      · rw [hitL_map]; simpa using h1
      · intro hp
        by_cases he : i.ent = .cond id
        · rw [if_pos he] at hp; cases hp
        · rw [if_neg he] at hp
          have hst : st = .pending := by
            rcases check_stat all ms.length (ms.countP (CTree.is i.ent)) c st with hh | hh
            · rw [hh] at hp; exact hp
            · exact hh.1
          subst hst
          obtain ⟨hc, hs⟩ := h2 rfl
          rw [hcount, ← hc]
          rw [← hc] at hle
          cases all with
          | false =>
            have hz : c = 0 := by simpa using hs
            rw [check_any] at hp ⊢
            split at hp
            · rename_i hn
              rw [if_pos hn, hn]
              exact ⟨rfl, by simpa using hz⟩
            · cases hp
          | true =>
            have hs : c < ms.length := by simpa using hs
            rw [check_all _ _ _ hs hle] at hp ⊢
            split at hp
            · cases hp
            · rename_i hn
              rw [if_neg hn]
              refine ⟨rfl, ?_⟩
              rw [if_pos rfl, hitL_map, List.length_map]
              show c + _ < _
              omega
      · intro ht
        rw [hfin]
        by_cases he : i.ent = .cond id
        · rw [if_pos he] at ht; cases ht
        · rw [if_neg he] at ht
          rcases check_stat all ms.length (ms.countP (CTree.is i.ent)) c st with hh | ⟨hh, -⟩
          · rw [hh] at ht
            rcases List.mem_cons.1 (h3 ht) with hi | hi
            · exact absurd (by rw [← hi]) he
            · exact T.keep _ hi
          · subst hh
            obtain ⟨hc, hs⟩ := h2 rfl
            rw [← hc] at hle
            have hin : ⟨i.time, false, .cond id⟩ ∈ q' := T.add id (by simp [hit, ht])
            have heq : agg all (finL due ms) = i.time := by
              refine le_antisymm ?_ (hpend rfl)
              cases all with
              | false =>
                rw [check_any] at ht
                split at ht
                · cases ht
                · rename_i hn
                  obtain ⟨m, hm, hmi⟩ := List.countP_pos_iff.1 (Nat.pos_of_ne_zero hn)
                  rw [← ((gm m hm).2.1 hmi).2]
                  exact agg_any _ _ (by rw [finL_eq]; exact List.mem_map.2 ⟨m, hm, rfl⟩)
              | true =>
                have hs : c < ms.length := by simpa using hs
                rw [check_all _ _ _ hs hle] at ht
                split at ht
                · rename_i hn
                  have hallp : ∀ m ∈ (hitL i.ent ms).1, m.processed done' = true := by
                    rw [← List.countP_eq_length, hcount, ← hc, hn, hitL_map, List.length_map]
                  have := agg_mem true (finL due ms) (by rw [finL_eq]; simpa using h1)
                  rw [finL_eq] at this
                  obtain ⟨m, hm, he⟩ := List.mem_map.1 this
                  rw [finL_eq, ← he]
                  obtain ⟨e1, e2, e3⟩ := gm m hm
                  have hp := hallp (hit i.ent m).1 (by rw [hitL_map]; exact List.mem_map.2 ⟨m, hm, rfl⟩)
                  rw [e1, Bool.or_eq_true] at hp
                  rcases hp with hp | hp
                  · exact (e3 hp).trans T.later
                  · exact (e2 hp).2.le
                · cases ht
            rw [heq]; exact hin
      · intro hp
        rw [hfin]
        by_cases he : i.ent = .cond id
        · exact (hent he).le
        · rw [if_neg he] at hp
          rcases check_stat all ms.length (ms.countP (CTree.is i.ent)) c st with hh | ⟨-, hh⟩
          · rw [hh] at hp; exact (h4 hp).trans T.later
          · rw [hh] at hp; cases hp
    · simp only [hit, CTree.processed, CTree.is]
      by_cases he : i.ent = .cond id
      · simp [he]
      · rw [if_neg he]
        rcases check_stat all ms.length (ms.countP (CTree.is i.ent)) c st with hh | ⟨hh, hh'⟩
        · rw [hh]; simp [he]
        · rw [hh', hh]; simp [he]
    · intro hk
      have he : i.ent = .cond id := by simpa [CTree.is] using hk
      exact ⟨by simp [CTree.processed, hself he], hent he⟩
    · intro hp
      exact h4 (by simpa [CTree.processed] using hp)
theorem hitL_ok (now : K) (i : Item K) (q q' : List (Item K)) (done done' : Nat → Bool) (due : Nat → K) : ∀ ms, Turn now i q q' done done' due (hitL i.ent ms).2 →
    OkL now (i :: q) done due ms → (∀ id st, i.ent = .cond id → (id, st) ∈ nodesL ms → st = .triggered) →
    OkL i.time q' done' due (hitL i.ent ms).1 ∧ ∀ m ∈ ms, ((hit i.ent m).1.processed done' = (m.processed done || m.is i.ent)) ∧
      (m.is i.ent = true → m.processed done = false ∧ fin due m = i.time) ∧ (m.processed done = true → fin due m ≤ now)
  | [], _, _, _ => ⟨trivial, fun _ h => by cases h⟩
  | m :: ms, T, h, hx => by
    have T1 : Turn now i q q' done done' due (hit i.ent m).2 := ⟨T.first, T.later, T.only, T.done', T.wait, T.keep, fun j hj => T.add j (by simp [hitL, hj])⟩
    have T2 : Turn now i q q' done done' due (hitL i.ent ms).2 := ⟨T.first, T.later, T.only, T.done', T.wait, T.keep, fun j hj => T.add j (by simp [hitL, hj])⟩
    obtain ⟨g1, g2⟩ := hit_ok now i q q' done done' due m T1 h.1 (fun j s he hm => hx j s he (by simp [nodesL, hm]))
    obtain ⟨k1, k2⟩ := hitL_ok now i q q' done done' due ms T2 h.2 (fun j s he hm => hx j s he (by simp [nodesL, hm]))
    exact ⟨⟨g1, k1⟩, List.forall_mem_cons.2 ⟨g2, k2⟩⟩
end

end Verif.Predict
