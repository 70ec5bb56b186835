import Verif.Predict.Trees

/-! # What is made of new events -/

namespace Verif.Predict

variable {K : Type} [Field K] [LinearOrder K] [IsStrictOrderedRing K]

mutual
/-- No event is waited for again. -/
def fresh : Tree K → Bool
  | .new _ => true
  | .old _ => false
  | .multi _ ms => freshL ms
def freshL : List (Tree K) → Bool
  | [] => true
  | m :: ms => fresh m && freshL ms
end

/-- The entries of new Timeouts. -/
def outs (now : K) (n : Nat) : List K → List (Item K)
  | [] => []
  | t :: ts => ⟨now + t, false, .timeout n⟩ :: outs now (n + 1) ts

theorem outs_append (now : K) (n : Nat) (ts us : List K) : outs now n (ts ++ us) = outs now n ts ++ outs now (n + ts.length) us := by
  induction ts generalizing n with
  | nil => rfl
  | cons t ts ih =>
    simp only [List.cons_append, outs, ih, List.length_cons]
    rw [Nat.add_assoc, Nat.add_comm 1]

theorem mem_outs {now : K} {n : Nat} {ts : List K} {i : Item K} : i ∈ outs now n ts ↔ ∃ j t, ts[j]? = some t ∧ i = ⟨now + t, false, .timeout (n + j)⟩ := by
  induction ts generalizing n with
  | nil => simp [outs]
  | cons t ts ih =>
    simp only [outs, List.mem_cons, ih]
    constructor
    · rintro (rfl | ⟨j, u, h, rfl⟩)
      · exact ⟨0, t, rfl, rfl⟩
      · exact ⟨j + 1, u, h, by rw [Nat.add_assoc, Nat.add_comm 1]⟩
    · rintro ⟨j, u, h, rfl⟩
      cases j with
      | zero => left; simp at h; rw [h]; rfl
      | succ j => exact .inr ⟨j, u, by simpa using h, by rw [Nat.add_assoc, Nat.add_comm 1]⟩

mutual
theorem build_waits (now : K) : ∀ (e : Tree K) (b : Making K), (build now b e).1.waits = b.waits ++ (news e).map fun t => ⟨t, now + t, false⟩
  | .new t, b => rfl
  | .old k, b => by simp [build, news]
  | .multi all ms, b => by simp only [build, news]; exact buildL_waits now ms b
theorem buildL_waits (now : K) : ∀ (ms : List (Tree K)) (b : Making K), (buildL now b ms).1.waits = b.waits ++ (newsL ms).map fun t => ⟨t, now + t, false⟩
  | [], b => by simp [buildL, newsL]
  | m :: ms, b => by
    simp only [buildL, newsL]
    rw [buildL_waits now ms, build_waits now m]
    simp
end

theorem buildL_length (now : K) (ms : List (Tree K)) (b : Making K) : (buildL now b ms).2.length = ms.length := by
  induction ms generalizing b with
  | nil => rfl
  | cons m ms ih => simp only [buildL, List.length_cons, ih]

/-- What is made of a new event. -/
structure Made (now : K) (b : Making K) (b' : Making K) (ts : List K) (ns : List (Nat × CStat)) (ls : List Nat) : Prop where
  sched : b'.sched = b.sched ++ outs now b.waits.length ts
  next : b.next ≤ b'.next
  ids : ∀ p ∈ ns, p.2 = .pending ∧ b.next ≤ p.1 ∧ p.1 < b'.next
  nodup : (ns.map (·.1)).Nodup
  leaves : ∀ k ∈ ls, b.waits.length ≤ k ∧ k < b.waits.length + ts.length

mutual
theorem build_made (now : K) : ∀ (e : Tree K) (b : Making K), fresh e = true → hasTime e = true →
    Made now b (build now b e).1 (news e) (nodes (build now b e).2) (leaves (build now b e).2) ∧
      ∀ done : Nat → Bool, (∀ k, b.waits.length ≤ k → done k = false) → (build now b e).2.processed done = false
  | .new t, b, _, _ => by
    refine ⟨⟨rfl, le_refl _, fun p h => (List.not_mem_nil h).elim, List.nodup_nil, fun k hk => ?_⟩, fun done h => h _ (le_refl _)⟩
    simp only [build, leaves, List.mem_singleton] at hk
    subst hk
    simp [news]
  | .old k, b, h, _ => by simp [fresh] at h
  | .multi all ms, b, hf, ht => by
    simp only [hasTime, Bool.and_eq_true, Bool.not_eq_true', List.isEmpty_eq_false_iff] at ht
    obtain ⟨g, gp⟩ := buildL_made now ms b (by simpa [fresh] using hf) ht.2
    have hne : (buildL now b ms).2.isEmpty = false := by
      rw [List.isEmpty_eq_false_iff, ← List.length_pos_iff, buildL_length, List.length_pos_iff]
      exact ht.1
    have hd : ∀ k, b.waits.length ≤ k → doneOf (buildL now b ms).1.waits k = false := by
      intro k hk
      rw [buildL_waits, doneOf, List.getElem?_append_right hk, List.getElem?_map]
      cases (newsL ms)[k - b.waits.length]? <;> rfl
    have hz : (buildL now b ms).2.countP (CTree.processed (doneOf (buildL now b ms).1.waits)) = 0 :=
      List.countP_eq_zero.2 fun m hm => by rw [gp _ hd m hm]; simp
    simp only [build, hne, Bool.false_eq_true, if_false, hz, check, news, nodes, leaves]
    refine ⟨⟨by simpa using g.sched, g.next.trans (Nat.le_succ _), fun p hp => ?_, ?_, g.leaves⟩, fun done h => by simp [CTree.processed]⟩
    · rcases List.mem_append.1 hp with hp | hp
      · obtain ⟨h1, h2, h3⟩ := g.ids p hp
        exact ⟨h1, h2, h3.trans (Nat.lt_succ_self _)⟩
      · simp only [List.mem_singleton] at hp
        subst hp
        exact ⟨rfl, g.next, Nat.lt_succ_self _⟩
    · rw [List.map_append, List.nodup_append]
      refine ⟨g.nodup, by simp, fun a ha c hc => ?_⟩
      simp only [List.map_cons, List.map_nil, List.mem_singleton] at hc
      obtain ⟨p, hp, rfl⟩ := List.mem_map.1 ha
      rw [hc]
      exact (g.ids p hp).2.2.ne
theorem buildL_made (now : K) : ∀ (ms : List (Tree K)) (b : Making K), freshL ms = true → hasTimeL ms = true →
    Made now b (buildL now b ms).1 (newsL ms) (nodesL (buildL now b ms).2) (leavesL (buildL now b ms).2) ∧
      ∀ done : Nat → Bool, (∀ k, b.waits.length ≤ k → done k = false) → ∀ m ∈ (buildL now b ms).2, m.processed done = false
  | [], b, _, _ => ⟨⟨by simp [buildL, newsL, outs], le_refl _, fun p h => (List.not_mem_nil h).elim, List.nodup_nil, fun k h => (List.not_mem_nil h).elim⟩,
      fun done h m hm => (List.not_mem_nil hm).elim⟩
  | m :: ms, b, hf, ht => by
    simp only [freshL, hasTimeL, Bool.and_eq_true] at hf ht
    obtain ⟨g, gp⟩ := build_made now m b hf.1 ht.1
    obtain ⟨g', gp'⟩ := buildL_made now ms (build now b m).1 hf.2 ht.2
    have hlen : (build now b m).1.waits.length = b.waits.length + (news m).length := by rw [build_waits]; simp
    simp only [buildL, newsL, nodesL, leavesL]
    refine ⟨⟨?_, g.next.trans g'.next, fun p hp => ?_, ?_, fun k hk => ?_⟩, fun done h => List.forall_mem_cons.2 ⟨gp done h, gp' done fun k hk => h k (by omega)⟩⟩
    · rw [g'.sched, g.sched, outs_append, hlen, List.append_assoc]
    · rcases List.mem_append.1 hp with hp | hp
      · obtain ⟨h1, h2, h3⟩ := g.ids p hp
        exact ⟨h1, h2, h3.trans_le g'.next⟩
      · obtain ⟨h1, h2, h3⟩ := g'.ids p hp
        exact ⟨h1, g.next.trans h2, h3⟩
    · rw [List.map_append, List.nodup_append]
      refine ⟨g.nodup, g'.nodup, fun a ha c hc => ?_⟩
      obtain ⟨p, hp, rfl⟩ := List.mem_map.1 ha
      obtain ⟨p', hp', rfl⟩ := List.mem_map.1 hc
      have h1 := (g.ids p hp).2.2
      have h2 := (g'.ids p' hp').2.1
      omega
    · rw [List.length_append]
      rcases List.mem_append.1 hk with hk | hk
      · have := g.leaves k hk; omega
      · have := g'.leaves k hk; omega
end

mutual
theorem build_fin (now : K) (due : Nat → K) (len : Nat → K) : ∀ (e : Tree K) (b : Making K), fresh e = true → hasTime e = true →
    (∀ j t, (news e)[j]? = some t → due (b.waits.length + j) = now + t) → fin due (build now b e).2 = now + total len e
  | .new t, b, _, _, hd => by
    have := hd 0 t rfl
    simpa [build, fin, total] using this
  | .old k, b, h, _, _ => by simp [fresh] at h
  | .multi all ms, b, hf, ht, hd => by
    simp only [hasTime, Bool.and_eq_true, Bool.not_eq_true', List.isEmpty_eq_false_iff] at ht
    simp only [build, fin, total]
    rw [buildL_fin now due len ms b (by simpa [fresh] using hf) ht.2 hd, agg_add]
    intro h
    apply ht.1
    cases ms with
    | nil => rfl
    | cons m ms => simp [totalL] at h
theorem buildL_fin (now : K) (due : Nat → K) (len : Nat → K) : ∀ (ms : List (Tree K)) (b : Making K), freshL ms = true → hasTimeL ms = true →
    (∀ j t, (newsL ms)[j]? = some t → due (b.waits.length + j) = now + t) → finL due (buildL now b ms).2 = (totalL len ms).map (now + ·)
  | [], b, _, _, _ => rfl
  | m :: ms, b, hf, ht, hd => by
    simp only [freshL, hasTimeL, Bool.and_eq_true] at hf ht
    have hlen : (build now b m).1.waits.length = b.waits.length + (news m).length := by rw [build_waits]; simp
    have h1 := build_fin now due len m b hf.1 ht.1 (fun j t hj => hd j t (by
      simp only [newsL]
      rw [List.getElem?_append_left (List.getElem?_eq_some_iff.1 hj).1]
      exact hj))
    have h2 := buildL_fin now due len ms (build now b m).1 hf.2 ht.2 (fun j t hj => by
      rw [hlen, Nat.add_assoc]
      refine hd _ t ?_
      simp only [newsL]
      rw [List.getElem?_append_right (by omega), Nat.add_sub_cancel_left]
      exact hj)
    simp only [buildL, finL, totalL, List.map_cons, h1, h2]
end

mutual
theorem build_ok (now : K) (q : List (Item K)) (done : Nat → Bool) (due : Nat → K) : ∀ (e : Tree K) (b : Making K), fresh e = true → hasTime e = true →
    (∀ j t, (news e)[j]? = some t → due (b.waits.length + j) = now + t) → (∀ k, b.waits.length ≤ k → done k = false) →
    (∀ i ∈ outs now b.waits.length (news e), i ∈ q) → Ok now q done due (build now b e).2
  | .new t, b, _, _, hd, hn, hq => by
    refine ⟨fun h => ?_, fun _ => ?_⟩
    · rw [hn _ (le_refl _)] at h; cases h
    · have := hd 0 t rfl
      rw [Nat.add_zero] at this
      rw [this]
      exact hq _ (by simp [news, outs])
  | .old k, b, h, _, _, _, _ => by simp [fresh] at h
  | .multi all ms, b, hf, ht, hd, hn, hq => by
    simp only [hasTime, Bool.and_eq_true, Bool.not_eq_true', List.isEmpty_eq_false_iff] at ht
    have hf' : freshL ms = true := by simpa [fresh] using hf
    obtain ⟨g, gp⟩ := buildL_made now ms b hf' ht.2
    have hpos : 0 < (buildL now b ms).2.length := by
      rw [buildL_length, List.length_pos_iff]
      exact ht.1
    have hne : (buildL now b ms).2.isEmpty = false := by
      rw [List.isEmpty_eq_false_iff, ← List.length_pos_iff]
      exact hpos
    have hd' : ∀ k, b.waits.length ≤ k → doneOf (buildL now b ms).1.waits k = false := by
      intro k hk
      rw [buildL_waits, doneOf, List.getElem?_append_right hk, List.getElem?_map]
      cases (newsL ms)[k - b.waits.length]? <;> rfl
    have hz : (buildL now b ms).2.countP (CTree.processed (doneOf (buildL now b ms).1.waits)) = 0 :=
      List.countP_eq_zero.2 fun m hm => by rw [gp _ hd' m hm]; simp
    have hz' : (buildL now b ms).2.countP (CTree.processed done) = 0 :=
      List.countP_eq_zero.2 fun m hm => by rw [gp _ hn m hm]; simp
    simp only [build, hne, Bool.false_eq_true, if_false, hz, check]
    refine ⟨buildL_ok now q done due ms b hf' ht.2 hd hn hq, List.length_pos_iff.1 hpos, fun _ => ⟨hz'.symm, ?_⟩, fun h => (nomatch h), fun h => (nomatch h)⟩
    split
    · exact hpos
    · rfl
theorem buildL_ok (now : K) (q : List (Item K)) (done : Nat → Bool) (due : Nat → K) : ∀ (ms : List (Tree K)) (b : Making K), freshL ms = true → hasTimeL ms = true →
    (∀ j t, (newsL ms)[j]? = some t → due (b.waits.length + j) = now + t) → (∀ k, b.waits.length ≤ k → done k = false) →
    (∀ i ∈ outs now b.waits.length (newsL ms), i ∈ q) → OkL now q done due (buildL now b ms).2
  | [], b, _, _, _, _, _ => trivial
  | m :: ms, b, hf, ht, hd, hn, hq => by
    simp only [freshL, hasTimeL, Bool.and_eq_true] at hf ht
    have hlen : (build now b m).1.waits.length = b.waits.length + (news m).length := by rw [build_waits]; simp
    simp only [newsL, outs_append, List.mem_append] at hq
    have h1 := build_ok now q done due m b hf.1 ht.1 (fun j t hj => hd j t (by
      simp only [newsL]
      rw [List.getElem?_append_left (List.getElem?_eq_some_iff.1 hj).1]
      exact hj)) hn (fun i hi => hq i (.inl hi))
    have h2 := buildL_ok now q done due ms (build now b m).1 hf.2 ht.2 (fun j t hj => by
      rw [hlen, Nat.add_assoc]
      refine hd _ t ?_
      simp only [newsL]
      rw [List.getElem?_append_right (by omega), Nat.add_sub_cancel_left]
      exact hj) (fun k hk => hn k (by omega)) (fun i hi => hq i (.inr (by rw [← hlen]; exact hi)))
    exact ⟨h1, h2⟩
end

mutual
/-- What takes time takes no negative time. -/
theorem total_nonneg (len : Nat → K) (n : Nat) : ∀ e : Tree K, fresh e = true → valid n e = true → 0 ≤ total len e
  | .new t, _, h => by simpa [valid, total] using h
  | .old k, h, _ => by simp [fresh] at h
  | .multi all ms, hf, h => by
    have := totalL_nonneg len n ms (by simpa [fresh] using hf) (by simpa [valid] using h)
    simp only [total]
    by_cases he : totalL len ms = []
    · rw [he]; cases all <;> exact le_refl _
    · exact this _ (agg_mem all _ he)
theorem totalL_nonneg (len : Nat → K) (n : Nat) : ∀ ms : List (Tree K), freshL ms = true → validL n ms = true → ∀ t ∈ totalL len ms, 0 ≤ t
  | [], _, _ => fun _ h => (List.not_mem_nil h).elim
  | m :: ms, hf, h => by
    simp only [freshL, validL, Bool.and_eq_true] at hf h
    exact List.forall_mem_cons.2 ⟨total_nonneg len n m hf.1 h.1, totalL_nonneg len n ms hf.2 h.2⟩
end

mutual
theorem news_nonneg (n : Nat) : ∀ e : Tree K, valid n e = true → ∀ t ∈ news e, 0 ≤ t
  | .new t, h => by simpa [valid, news] using h
  | .old k, _ => fun _ h => (List.not_mem_nil h).elim
  | .multi all ms, h => newsL_nonneg n ms (by simpa [valid] using h)
theorem newsL_nonneg (n : Nat) : ∀ ms : List (Tree K), validL n ms = true → ∀ t ∈ newsL ms, 0 ≤ t
  | [], _ => fun _ h => (List.not_mem_nil h).elim
  | m :: ms, h => by
    simp only [validL, Bool.and_eq_true] at h
    intro t ht
    rcases List.mem_append.1 ht with ht | ht
    · exact news_nonneg n m h.1 t ht
    · exact newsL_nonneg n ms h.2 t ht
end

/-- The direct members are new. -/
theorem direct_new (len : Nat → K) (n : Nat) (ms : List (Tree K)) (hf : freshL ms = true) (p : Nat × K) (hp : p ∈ direct len n ms) :
    ∃ j, p.1 = n + j ∧ (newsL ms)[j]? = some p.2 := by
  induction ms generalizing n with
  | nil => cases hp
  | cons m ms ih =>
    simp only [freshL, Bool.and_eq_true] at hf
    cases m with
    | new t =>
      simp only [direct, List.mem_cons] at hp
      rcases hp with rfl | hp
      · exact ⟨0, rfl, rfl⟩
      · obtain ⟨j, h1, h2⟩ := ih _ hf.2 hp
        exact ⟨j + 1, by omega, by simpa [newsL, news] using h2⟩
    | old k => simp [fresh] at hf
    | multi all ms' =>
      simp only [direct] at hp
      obtain ⟨j, h1, h2⟩ := ih _ hf.2 hp
      refine ⟨(newsL ms').length + j, by omega, ?_⟩
      simp only [newsL, news]
      rw [List.getElem?_append_right (by omega), Nat.add_sub_cancel_left]
      exact h2

mutual
theorem waits_new (n : Nat) : ∀ e : Tree K, fresh e = true → ∀ n, ∀ k ∈ waits n e, n ≤ k ∧ k < n + (news e).length
  | .new t, _, n => fun k hk => by simp only [waits, List.mem_singleton] at hk; subst hk; simp [news]
  | .old k, h, _ => by simp [fresh] at h
  | .multi all ms, h, n => waitsL_new n ms (by simpa [fresh] using h) n
theorem waitsL_new (n : Nat) : ∀ ms : List (Tree K), freshL ms = true → ∀ n, ∀ k ∈ waitsL n ms, n ≤ k ∧ k < n + (newsL ms).length
  | [], _, _ => fun _ h => (List.not_mem_nil h).elim
  | m :: ms, h, n => by
    simp only [freshL, Bool.and_eq_true] at h
    intro k hk
    simp only [newsL, List.length_append]
    rcases List.mem_append.1 hk with hk | hk
    · have := waits_new n m h.1 n k hk; omega
    · have := waitsL_new n ms h.2 _ k hk; omega
end

end Verif.Predict
