import Verif.Queued.Track

/-! # The beginning of a trip, and what the notifications mean -/

namespace Verif.Queued

open Verif.Sphere (Tag)

variable {α L : Type} [Field α] [LinearOrder α] [IsStrictOrderedRing α]

theorem apart {ps : List (Entry α × Entry α)} (h : ps.Pairwise fun p q => p.2.time < q.1.time) {p q} (hp : p ∈ ps) (hq : q ∈ ps) :
    p = q ∨ p.2.time < q.1.time ∨ q.2.time < p.1.time := by
  obtain ⟨i, hi, rfl⟩ := List.mem_iff_getElem.1 hp
  obtain ⟨j, hj, rfl⟩ := List.mem_iff_getElem.1 hq
  rcases lt_trichotomy i j with h1 | rfl | h1
  · exact .inr (.inl (List.pairwise_iff_getElem.1 h i j hi hj h1))
  · exact .inl rfl
  · exact .inr (.inr (List.pairwise_iff_getElem.1 h j i hj hi h1))

theorem gap (qs : List (Entry α × Entry α)) (t : α) (h : ∀ q ∈ qs, q.2.time < t ∨ t < q.1.time ∨ (q.1.time = t ∧ q.2.time = t)) :
    ∃ ε, 0 < ε ∧ ∀ y, t - ε < y → y < t + ε → y ≠ t → ∀ q ∈ qs, ¬ (q.1.time ≤ y ∧ y ≤ q.2.time) := by
  induction qs with
  | nil => exact ⟨1, one_pos, by simp⟩
  | cons q qs ih =>
    obtain ⟨ε, he, hε⟩ := ih fun r hr => h r (by simp [hr])
    suffices ∃ ε', 0 < ε' ∧ ∀ y, t - ε' < y → y < t + ε' → y ≠ t → ¬ (q.1.time ≤ y ∧ y ≤ q.2.time) by
      obtain ⟨ε', he', hε'⟩ := this
      refine ⟨min ε ε', lt_min he he', fun y h1 h2 h3 r hr => ?_⟩
      have := min_le_left ε ε'
      have := min_le_right ε ε'
      rcases List.mem_cons.1 hr with rfl | hr
      · exact hε' y (by linarith) (by linarith) h3
      · exact hε y (by linarith) (by linarith) h3 r hr
    rcases h q (by simp) with h1 | h1 | ⟨h1, h2⟩
    · exact ⟨t - q.2.time, by linarith, fun y e1 e2 _ hc => by linarith [hc.2]⟩
    · exact ⟨q.1.time - t, by linarith, fun y e1 e2 _ hc => by linarith [hc.1]⟩
    · exact ⟨1, one_pos, fun y _ _ e3 hc => e3 (le_antisymm (by linarith [hc.2]) (by linarith [hc.1]))⟩

theorem gap_above (qs : List (Entry α × Entry α)) (t : α) (h : ∀ q ∈ qs, q.2.time ≤ t ∨ t < q.1.time) :
    ∃ y, t < y ∧ ∀ τ, t < τ → τ < y → ∀ q ∈ qs, ¬ (q.1.time ≤ τ ∧ τ ≤ q.2.time) := by
  induction qs with
  | nil => exact ⟨t + 1, by linarith, by simp⟩
  | cons q qs ih =>
    obtain ⟨y, hy, hgap⟩ := ih fun r hr => h r (by simp [hr])
    rcases h q (by simp) with h1 | h1
    · refine ⟨y, hy, fun τ e1 e2 r hr => ?_⟩
      rcases List.mem_cons.1 hr with rfl | hr
      · exact fun hc => by linarith [hc.2]
      · exact hgap τ e1 e2 r hr
    · refine ⟨min y q.1.time, lt_min hy h1, fun τ e1 e2 r hr => ?_⟩
      rw [lt_min_iff] at e2
      rcases List.mem_cons.1 hr with rfl | hr
      · exact fun hc => by linarith [hc.1]
      · exact hgap τ e1 e2.1 r hr

theorem gap_below (qs : List (Entry α × Entry α)) (t : α) (h : ∀ q ∈ qs, q.2.time < t ∨ t ≤ q.1.time) :
    ∃ y, y < t ∧ ∀ τ, y < τ → τ < t → ∀ q ∈ qs, ¬ (q.1.time ≤ τ ∧ τ ≤ q.2.time) := by
  induction qs with
  | nil => exact ⟨t - 1, by linarith, by simp⟩
  | cons q qs ih =>
    obtain ⟨y, hy, hgap⟩ := ih fun r hr => h r (by simp [hr])
    rcases h q (by simp) with h1 | h1
    · refine ⟨max y q.2.time, max_lt hy h1, fun τ e1 e2 r hr => ?_⟩
      rw [max_lt_iff] at e1
      rcases List.mem_cons.1 hr with rfl | hr
      · exact fun hc => by linarith [hc.2]
      · exact hgap τ e1.1 e2 r hr
    · refine ⟨y, hy, fun τ e1 e2 r hr => ?_⟩
      rcases List.mem_cons.1 hr with rfl | hr
      · exact fun hc => by linarith [hc.1]
      · exact hgap τ e1 e2 r hr

variable {inside : α → Prop} {lo hi tc : α} {ps : List (Entry α × Entry α)}

theorem Good.strict (h : Good inside lo hi ps) (hn : NoTouch inside lo hi) {p} (hp : p ∈ ps) (hx : p.2.kind = .exit) : p.1.time < p.2.time := by
  have hb := h.bounds p hp
  rcases lt_or_eq_of_le hb.2.1 with hlt | heq
  · exact hlt
  · exfalso
    have hlt : p.2.time < hi := by
      rcases h.second p hp with ⟨hc, _⟩ | ⟨_, hc⟩
      · rw [hc] at hx; cases hx
      · exact hc
    refine hn p.2.time (by linarith) hlt ((h.covers _ (by linarith) hlt.le).2 ⟨p, hp, hb.2.1, le_refl _⟩) ?_
    obtain ⟨ε, he, hε⟩ := gap ps p.2.time fun q hq => by
      rcases apart h.ordered hp hq with rfl | hc | hc
      · exact .inr (.inr ⟨heq, rfl⟩)
      · exact .inr (.inl hc)
      · exact .inl (by rw [← heq]; exact hc)
    refine ⟨ε, he, fun y h1 h2 h3 h4 h5 hin => ?_⟩
    obtain ⟨q, hq, hc⟩ := (h.covers y h1 h2).1 hin
    exact hε y h3 h4 h5 q hq hc

theorem Good.leaves (h : Good inside lo hi ps) {p} (hp : p ∈ ps) (hx : p.2.kind = .exit) : LeavesAt inside hi p.2.time := by
  have hb := h.bounds p hp
  have hlt : p.2.time < hi := by
    rcases h.second p hp with ⟨hc, _⟩ | ⟨_, hc⟩
    · rw [hc] at hx; cases hx
    · exact hc
  refine ⟨(h.covers _ (by linarith) hlt.le).2 ⟨p, hp, hb.2.1, le_refl _⟩, hlt, ?_⟩
  obtain ⟨y, hy, hgap⟩ := gap_above ps p.2.time fun q hq => by
    rcases apart h.ordered hp hq with rfl | hc | hc
    · exact .inl (le_refl _)
    · exact .inr hc
    · exact .inl (by linarith)
  refine ⟨y, hy, fun τ h1 h2 h3 hin => ?_⟩
  obtain ⟨q, hq, hc⟩ := (h.covers τ (by linarith) h3).1 hin
  exact hgap τ h1 h2 q hq hc

theorem Good.enters (h : Good inside lo hi ps) (htc : lo ≤ tc) {p} (hp : p ∈ ps) (hle : tc ≤ p.2.time) : EntersAt inside tc (max p.1.time tc) := by
  have hb := h.bounds p hp
  refine ⟨(h.covers _ (le_max_of_le_right htc) (max_le (by linarith) (by linarith))).2 ⟨p, hp, le_max_left _ _, max_le hb.2.1 hle⟩, ?_⟩
  rcases le_or_gt p.1.time tc with hc | hc
  · exact .inl (max_eq_right hc)
  · rw [max_eq_left hc.le]
    obtain ⟨y, hy, hgap⟩ := gap_below ps p.1.time fun q hq => by
      rcases apart h.ordered hp hq with rfl | hc | hc
      · exact .inr (le_refl _)
      · exact .inr (by linarith)
      · exact .inl hc
    refine .inr ⟨y, hy, fun τ h1 h2 h3 hin => ?_⟩
    obtain ⟨q, hq, hc⟩ := (h.covers τ (by linarith) (by linarith)).1 hin
    exact hgap τ h2 h3 q hq hc

/-- The pairs for which processes are made. -/
def keep (tc : α) (ps : List (Entry α × Entry α)) : List (Entry α × Entry α) := ps.filter fun p => ¬ (p.1.time ≤ tc ∧ p.2.time < tc)

theorem Good.covers' (h : Good inside lo hi ps) (htc : lo ≤ tc) (τ : α) (h1 : tc ≤ τ) (h2 : τ ≤ hi) :
    inside τ ↔ ∃ p ∈ keep tc ps, p.1.time ≤ τ ∧ τ ≤ p.2.time := by
  rw [h.covers τ (by linarith) h2]
  constructor
  · rintro ⟨p, hp, h3, h4⟩
    refine ⟨p, List.mem_filter.2 ⟨hp, by simp only [decide_eq_true_eq]; exact fun hc => by linarith [hc.2]⟩, h3, h4⟩
  · rintro ⟨p, hp, hc⟩
    exact ⟨p, (List.mem_filter.1 hp).1, hc⟩

theorem keep_ge (h : Good inside lo hi ps) {p} (hp : p ∈ keep tc ps) : p ∈ ps ∧ tc ≤ p.2.time := by
  obtain ⟨hp, hc⟩ := List.mem_filter.1 hp
  refine ⟨hp, ?_⟩
  simp only [decide_eq_true_eq, not_and_or, not_le, not_lt] at hc
  rcases hc with hc | hc
  · linarith [(h.bounds p hp).2.1]
  · exact hc

theorem Good.kept (h : Good inside lo hi ps) (hn : NoTouch inside lo hi) (htc : lo ≤ tc) (hnl : tc = lo ∨ ¬ LeavesAt inside hi tc) (was : Bool)
    (hwas : was = true → tc ≤ hi ∧ inside tc) : Kept was tc (keep tc ps) := by
  have hord : (keep tc ps).Pairwise fun p q => p.2.time < q.1.time := h.ordered.filter _
  have hsec : ∀ p ∈ keep tc ps, p.2.kind ≠ .exit → p.2.time = hi := fun p hp hx => by
    rcases h.second p (keep_ge h hp).1 with hc | hc
    · exact hc.2
    · exact absurd hc.1 hx
  refine ⟨hord, fun p hp => (h.bounds p (keep_ge h hp).1).2.1, fun p hp => (keep_ge h hp).2, fun p hp => ?_, fun p hp hx => ?_, fun j q hq hx => ?_, fun hw => ?_⟩
  · rcases h.first p (keep_ge h hp).1 with hc | hc
    · exact .inl ⟨hc.1, by linarith [hc.2]⟩
    · exact .inr hc
  · obtain ⟨hp', hge⟩ := keep_ge h hp
    have hst := h.strict hn hp' hx
    refine ⟨lt_of_le_of_ne hge fun hc => ?_, hst⟩
    rcases hnl with hl | hl
    · linarith [(h.bounds p hp').1]
    · exact hl (hc ▸ h.leaves hp' hx)
  · obtain ⟨hj, rfl⟩ := List.getElem?_eq_some_iff.1 hq
    by_contra hc
    have hj' : j + 1 < (keep tc ps).length := by omega
    have := List.pairwise_iff_getElem.1 hord j (j + 1) hj hj' (by omega)
    have h2 := hsec _ (List.getElem_mem hj) hx
    have h3 := h.bounds _ (keep_ge h (List.getElem_mem hj')).1
    linarith [h3.2.1, h3.2.2]
  · obtain ⟨hh, hin⟩ := hwas hw
    obtain ⟨p, hp, h1, h2⟩ := (h.covers' htc tc (le_refl _) hh).1 hin
    obtain ⟨i, hi', rfl⟩ := List.mem_iff_getElem.1 hp
    cases i with
    | zero => exact ⟨_, List.getElem?_eq_getElem hi', h1⟩
    | succ i =>
      exfalso
      have h3 := List.pairwise_iff_getElem.1 hord 0 (i + 1) (by omega) hi' (by omega)
      have h4 := (keep_ge h (List.getElem_mem (by omega : 0 < (keep tc ps).length))).2
      linarith

/-! ### Scheduling -/

theorem fold_spec (m s : Nat) (ps : List (Entry α × Entry α)) (σ : St α L) :
    (ps.foldl (schedule m s) σ).procs = σ.procs ++ (keep σ.now ps).map (fun p => ⟨m, s, p.1, p.2, .fresh, false⟩) ∧
    (ps.foldl (schedule m s) σ).now = σ.now ∧ (ps.foldl (schedule m s) σ).detect = σ.detect ∧ (ps.foldl (schedule m s) σ).movers = σ.movers ∧
    (ps.foldl (schedule m s) σ).inView = σ.inView ∧ (ps.foldl (schedule m s) σ).log = σ.log ∧
    (∀ e ∈ σ.events m, e ∈ (ps.foldl (schedule m s) σ).events m) ∧
    ∀ j, j < (keep σ.now ps).length → (s, σ.procs.length + j) ∈ (ps.foldl (schedule m s) σ).events m := by
  induction ps generalizing σ with
  | nil => simp [keep]
  | cons p ps ih =>
    rw [List.foldl_cons]
    obtain ⟨h1, h2, h3, h4, h5, h6, h7, h8⟩ := ih (schedule m s σ p)
    by_cases hc : p.1.time ≤ σ.now ∧ p.2.time < σ.now
    · have hs : schedule m s σ p = σ := by unfold schedule; rw [if_pos hc]
      have hk : keep σ.now (p :: ps) = keep σ.now ps := by unfold keep; rw [List.filter_cons_of_neg (by simpa using hc)]
      rw [hs] at h1 h2 h3 h4 h5 h6 h7 h8 ⊢
      rw [hk]
      exact ⟨h1, h2, h3, h4, h5, h6, h7, h8⟩
    · have hs : schedule m s σ p =
          { σ with procs := σ.procs ++ [⟨m, s, p.1, p.2, Stage.fresh, false⟩],
                   events := upd σ.events m (σ.events m ++ [(s, σ.procs.length)]) } := by unfold schedule; rw [if_neg hc]
      have hk : keep σ.now (p :: ps) = p :: keep σ.now ps := by unfold keep; rw [List.filter_cons_of_pos (by simp only [decide_eq_true_eq]; exact hc)]
      rw [hk]
      rw [hs] at h1 h2 h3 h4 h5 h6 h7 h8 ⊢
      refine ⟨by rw [h1]; simp, h2, h3, h4, h5, h6, fun e he => h7 e (by simp only [upd_self]; simp [he]), fun j hj => ?_⟩
      cases j with
      | zero => exact h7 _ (by simp only [upd_self]; simp)
      | succ j =>
        have := h8 j (by simpa using hj)
        simp only [List.length_append, List.length_singleton] at this
        rwa [show σ.procs.length + (j + 1) = σ.procs.length + 1 + j by omega]

/-- The processes of `m` and `s` have ended. -/
def Quiet (σ : St α L) (m s : Nat) : Prop := ∀ p ∈ σ.procs, p.mover = m → p.sensor = s → p.stage = .over

theorem Quiet.frame {m s : Nat} {σ τ : St α L} (h : Quiet σ m s) (f : Frame m s σ τ) : Quiet τ m s := by
  intro p hp h1 h2
  obtain ⟨i, hi⟩ := List.mem_iff_getElem?.1 hp
  exact h p (List.mem_of_getElem? ((f.procs i p h1 h2).1 hi)) h1 h2

theorem trk_findOne (I : Inter α L) (σ : St α L) (m s : Nat) (t : Trip α L) (hw : Wf σ) (hdet : σ.detect m = some true) (ht : σ.movers.get? m = some t)
    (hq : Quiet σ m s) (hps : processPair I t s = some ps) :
    Trk m s σ.now σ.procs.length (keep σ.now ps) (decide (s ∈ σ.inView m)) (told σ m s) 0 false (findOne I σ m s).1 := by
  have hf : findOne I σ m s = (ps.foldl (schedule m s) σ, .ok) := by simp [findOne, ht, hps]
  obtain ⟨h1, h2, h3, h4, h5, h6, h7, h8⟩ := fold_spec m s ps σ
  rw [hf]
  dsimp only
  have hkp : ∀ (i : Nat), (ps.foldl (schedule m s) σ).procs[i]? = if i < σ.procs.length then σ.procs[i]? else
      ((keep σ.now ps)[i - σ.procs.length]?).map (fun p => ⟨m, s, p.1, p.2, .fresh, false⟩) := by
    intro i
    rw [h1, List.getElem?_append]
    split
    · rfl
    · rw [List.getElem?_map]
  refine ⟨foldl_wf m s ps σ hw, by rw [h3]; exact hdet, by unfold Dict.has; rw [h4, ht]; rfl, h2.ge, Nat.zero_le _, by simp, ?_, ?_, ?_, ?_, trivial, ?_, ?_⟩
  · intro i p g1 g2 g3 g4
    rw [hkp] at g1
    split at g1
    · exact absurd (hq p (List.mem_of_getElem? g1) g2 g3) g4
    · obtain ⟨q, hq1, hq2⟩ := Option.map_eq_some_iff.1 g1
      subst hq2
      exact ⟨i - σ.procs.length, q, by omega, Nat.zero_le _, hq1, rfl, rfl, rfl, .inr ⟨by simp, .inl ⟨rfl, h2⟩⟩⟩
  · intro j _ hj
    refine ⟨⟨m, s, (keep σ.now ps)[j].1, (keep σ.now ps)[j].2, .fresh, false⟩, ?_, rfl, rfl, by simp, h8 j hj⟩
    rw [hkp, if_neg (by omega), Nat.add_sub_cancel_left, List.getElem?_eq_getElem hj]
    rfl
  · rw [news_zero, List.append_nil]; unfold told; rw [h6]
  · intro j q _
    refine ⟨fun hc => ?_, fun hc => by omega⟩
    rcases hc with hc | ⟨_, hc⟩
    · omega
    · cases hc
  · rw [news_zero, h5]; rfl
  · rw [h5]
    constructor
    · intro hc; exact .inr (.inl ⟨rfl, decide_eq_true hc⟩)
    · rintro (hc | ⟨_, hc⟩ | ⟨j, _, hc, _⟩)
      · cases hc
      · exact of_decide_eq_true hc
      · omega

/-! ### What the notifications mean -/

theorem mem_news {was : Bool} {tc : α} {kept : List (Entry α × Entry α)} {d : Nat} {cur : Bool} {t : α} {e : Bool} :
    (t, e) ∈ news was tc kept d cur ↔ ∃ j q, kept[j]? = some q ∧
      ((e = true ∧ (j < d ∨ j = d ∧ cur = true) ∧ ¬ (was = true ∧ j = 0) ∧ t = max q.1.time tc) ∨
       (e = false ∧ j < d ∧ q.2.kind = .exit ∧ t = q.2.time)) := by
  have hent : ∀ j, (t, e) ∈ ent was tc kept j ↔ ∃ q, kept[j]? = some q ∧ e = true ∧ ¬ (was = true ∧ j = 0) ∧ t = max q.1.time tc := by
    intro j
    unfold ent
    split
    · rename_i h; simp [h]
    · rename_i h
      split
      · rename_i q hq
        simp only [List.mem_singleton, Prod.mk.injEq]
        exact ⟨fun hc => ⟨q, hq, hc.2, h, hc.1⟩, fun ⟨q', h1, h2, _, h4⟩ => by rw [hq] at h1; cases h1; exact ⟨h4, h2⟩⟩
      · simp_all
  have hext : ∀ j, (t, e) ∈ ext kept j ↔ ∃ q, kept[j]? = some q ∧ e = false ∧ q.2.kind = .exit ∧ t = q.2.time := by
    intro j
    unfold ext
    split
    · rename_i q hq
      split <;> rename_i hx
      · simp only [List.mem_singleton, Prod.mk.injEq]
        exact ⟨fun hc => ⟨q, hq, hc.2, hx, hc.1⟩, fun ⟨q', h1, h2, _, h4⟩ => by rw [hq] at h1; cases h1; exact ⟨h4, h2⟩⟩
      · simp only [List.not_mem_nil, false_iff]
        exact fun ⟨q', h1, _, h3, _⟩ => by rw [hq] at h1; cases h1; exact hx h3
    · simp_all
  simp only [news, List.mem_append, List.mem_flatMap, List.mem_range, hent, hext]
  constructor
  · rintro (⟨j, hj, ⟨q, h1, h2, h3, h4⟩ | ⟨q, h1, h2, h3, h4⟩⟩ | hc)
    · exact ⟨j, q, h1, .inl ⟨h2, .inl hj, h3, h4⟩⟩
    · exact ⟨j, q, h1, .inr ⟨h2, hj, h3, h4⟩⟩
    · cases cur
      · simp at hc
      · rw [if_pos rfl, hent] at hc
        obtain ⟨q, h1, h2, h3, h4⟩ := hc
        exact ⟨d, q, h1, .inl ⟨h2, .inr ⟨rfl, rfl⟩, h3, h4⟩⟩
  · rintro ⟨j, q, h1, ⟨h2, hj | ⟨rfl, rfl⟩, h3, h4⟩ | ⟨h2, hj, h3, h4⟩⟩
    · exact .inl ⟨j, hj, .inl ⟨q, h1, h2, h3, h4⟩⟩
    · right; rw [if_pos rfl, hent]; exact ⟨q, h1, h2, h3, h4⟩
    · exact .inl ⟨j, hj, .inr ⟨q, h1, h2, h3, h4⟩⟩

theorem Trk.right {m s b0 d : Nat} {was cur : Bool} {l0 : List (α × Bool)} {σ : St α L} (hg : Good inside lo hi ps) (htc : lo ≤ tc)
    (hk : Kept was tc (keep tc ps)) (h : Trk m s tc b0 (keep tc ps) was l0 d cur σ) :
    Right inside tc hi σ.now was (news was tc (keep tc ps) d cur) ∧
    (s ∈ σ.inView m → σ.now ≤ hi → inside σ.now) ∧ (inside σ.now → σ.now ≤ hi → s ∈ σ.inView m ∨ EntersAt inside tc σ.now ∨ LeavesAt inside hi σ.now) := by
  -- a pair not yet entered
  have hwait : ∀ (j : Nat) q, (keep tc ps)[j]? = some q → ¬ (j < d ∨ j = d ∧ cur = true) → σ.now = tc ∨ (σ.now ≤ q.1.time ∧ tc < q.1.time) := by
    intro j q hq hj
    have hlen := (List.getElem?_eq_some_iff.1 hq).1
    obtain ⟨p, hp, h1, h2, h3, _⟩ := h.there j (by omega) hlen
    obtain ⟨j', q', g1, g2, g3, g4, g5, g6, g7⟩ := h.live _ p hp h1 h2 h3
    have : j' = j := by omega
    subst this
    rw [hq] at g3; cases g3
    rcases g7 with ⟨rfl, hc, _⟩ | ⟨_, ⟨_, hc⟩ | ⟨_, hc⟩⟩
    · exact absurd (.inr ⟨rfl, hc⟩) hj
    · exact .inl hc
    · exact .inr hc
  -- the pair in which the mover is
  have hcur : ∀ q, (keep tc ps)[d]? = some q → cur = true → σ.now ≤ q.2.time := by
    intro q hq hc
    have hlen := (List.getElem?_eq_some_iff.1 hq).1
    obtain ⟨p, hp, h1, h2, h3, _⟩ := h.there d (le_refl _) hlen
    obtain ⟨j', q', g1, g2, g3, g4, g5, g6, g7⟩ := h.live _ p hp h1 h2 h3
    have : j' = d := by omega
    subst this
    rw [hq] at g3; cases g3
    rcases g7 with ⟨_, _, _, hc⟩ | ⟨hc', _⟩
    · exact hc
    · exact absurd ⟨rfl, hc⟩ hc'
  have hmem : ∀ (j : Nat) q, (keep tc ps)[j]? = some q → q ∈ ps ∧ tc ≤ q.2.time := fun j q hq => keep_ge hg (List.mem_of_getElem? hq)
  have hsec : ∀ (j : Nat) q, (keep tc ps)[j]? = some q → q.2.kind ≠ .exit → q.2.time = hi := fun j q hq hx => by
    rcases hg.second q (hmem j q hq).1 with hc | hc
    · exact hc.2
    · exact absurd hc.1 hx
  refine ⟨⟨h.alt, fun t e ht => ?_, fun t ht => ?_, fun t ht => ?_, fun τ h1 h2 h3 => ?_⟩, fun hv hh => ?_, fun hin hh => ?_⟩
  · obtain ⟨j, q, hq, ⟨_, hj, _, rfl⟩ | ⟨_, hj, hx, rfl⟩⟩ := mem_news.1 ht
    · have hb := hg.bounds q (hmem j q hq).1
      exact ⟨le_max_right _ _, (h.past j q hq).1 hj, max_le (by linarith) (by linarith [(hmem j q hq).2])⟩
    · have hb := hg.bounds q (hmem j q hq).1
      exact ⟨(hmem j q hq).2, (h.past j q hq).2 hj hx, hb.2.2⟩
  · obtain ⟨j, q, hq, ⟨_, hj, _, rfl⟩ | ⟨hc, _⟩⟩ := mem_news.1 ht
    · exact hg.enters htc (hmem j q hq).1 (hmem j q hq).2
    · cases hc
  · obtain ⟨j, q, hq, ⟨hc, _⟩ | ⟨_, hj, hx, rfl⟩⟩ := mem_news.1 ht
    · cases hc
    · exact hg.leaves (hmem j q hq).1 hx
  · rw [hg.covers' htc τ h1 h3]
    constructor
    · rintro ⟨q, hq, ha, hb⟩
      obtain ⟨j, hj⟩ := List.mem_iff_getElem?.1 hq
      have hentered : j < d ∨ j = d ∧ cur = true := by
        by_contra hc
        rcases hwait j q hj hc with hc | hc
        · linarith
        · linarith [hc.1]
      -- exits are not between the entry and now
      have hex : ∀ b, (b, false) ∈ news was tc (keep tc ps) d cur → b < τ → b < q.1.time := by
        intro b hb' hbτ
        obtain ⟨j', q', hq', ⟨hc, _⟩ | ⟨_, hj', hx, rfl⟩⟩ := mem_news.1 hb'
        · cases hc
        · rcases lt_trichotomy j' j with hlt | rfl | hlt
          · exact hk.lt hlt hq' hj
          · rw [hj] at hq'; cases hq'; linarith
          · have := hk.lt hlt hj hq'
            linarith [hk.le q' (List.mem_of_getElem? hq')]
      by_cases hw : was = true ∧ j = 0
      · left
        refine ⟨hw.1, fun b hb' hbτ => ?_⟩
        have := hex b hb' hbτ
        obtain ⟨q', hq', hle⟩ := hk.was hw.1
        rw [hw.2, hq'] at hj; cases hj
        obtain ⟨j', q'', hq'', ⟨hc, _⟩ | ⟨_, hj', hx, rfl⟩⟩ := mem_news.1 hb'
        · cases hc
        · linarith [(hmem j' q'' hq'').2]
      · right
        refine ⟨max q.1.time tc, mem_news.2 ⟨j, q, hj, .inl ⟨rfl, hentered, hw, rfl⟩⟩, max_le ha h1, fun b hb' hc => ?_⟩
        have := hex b hb' hc.2
        linarith [hc.1, le_max_left q.1.time tc]
    · rintro (⟨hw, hno⟩ | ⟨a, ha, haτ, hno⟩)
      · obtain ⟨q, hq, hle⟩ := hk.was hw
        refine ⟨q, List.mem_of_getElem? hq, by linarith, ?_⟩
        by_contra hc
        push Not at hc
        by_cases hd : 0 < d
        · by_cases hx : q.2.kind = .exit
          · exact hno q.2.time (mem_news.2 ⟨0, q, hq, .inr ⟨rfl, hd, hx, rfl⟩⟩) hc
          · have := hsec 0 q hq hx; linarith
        · have hd : d = 0 := by omega
          subst hd
          cases hcc : cur
          · rcases hwait 0 q hq (by simp [hcc]) with hc' | hc'
            · linarith
            · linarith [hc'.2]
          · have := hcur q hq hcc; linarith
      · obtain ⟨j, q, hq, ⟨_, hj, _, rfl⟩ | ⟨hc, _⟩⟩ := mem_news.1 ha
        · have hle : q.1.time ≤ τ := (le_max_left _ _).trans haτ
          refine ⟨q, List.mem_of_getElem? hq, hle, ?_⟩
          by_contra hc
          push Not at hc
          rcases hj with hj | ⟨rfl, hcc⟩
          · by_cases hx : q.2.kind = .exit
            · exact hno q.2.time (mem_news.2 ⟨j, q, hq, .inr ⟨rfl, hj, hx, rfl⟩⟩)
                ⟨max_le (hk.le q (List.mem_of_getElem? hq)) (hmem j q hq).2, hc⟩
            · have := hsec j q hq hx; linarith
          · have := hcur q hq hcc; linarith
        · cases hc
  · rw [hg.covers' htc σ.now h.time hh]
    rcases h.view.1 hv with hc | ⟨hd, hw⟩ | ⟨j, q, hj, hq, hx⟩
    · obtain ⟨q, hq, _⟩ := h.isExit hc
      exact ⟨q, List.mem_of_getElem? hq, (le_max_left _ _).trans ((h.past d q hq).1 (.inr ⟨rfl, hc⟩)), hcur q hq hc⟩
    · obtain ⟨q, hq, hle⟩ := hk.was hw
      subst hd
      cases hcc : cur
      · rcases hwait 0 q hq (by simp [hcc]) with hc' | hc'
        · exact ⟨q, List.mem_of_getElem? hq, by linarith, by rw [hc']; exact (hmem 0 q hq).2⟩
        · linarith [hc'.2]
      · exact ⟨q, List.mem_of_getElem? hq, by linarith [h.time], hcur q hq hcc⟩
    · exact ⟨q, List.mem_of_getElem? hq, (le_max_left _ _).trans ((h.past j q hq).1 (.inl (by omega))), by rw [hsec j q hq hx]; exact hh⟩
  · obtain ⟨q, hq, ha, hb⟩ := (hg.covers' htc σ.now h.time hh).1 hin
    obtain ⟨j, hj⟩ := List.mem_iff_getElem?.1 hq
    by_cases hentered : j < d ∨ j = d ∧ cur = true
    · rcases hentered with hlt | ⟨_, hc⟩
      · by_cases hx : q.2.kind = .exit
        · right; right
          have := (h.past j q hj).2 hlt hx
          rw [le_antisymm hb this]
          exact hg.leaves (hmem j q hj).1 hx
        · left
          refine h.view.2 (.inr (.inr ⟨j, q, ?_, hj, hx⟩))
          have := hk.last j q hj hx
          have := h.dle
          omega
      · exact .inl (h.view.2 (.inl hc))
    · right; left
      have he := hg.enters htc (hmem j q hj).1 (hmem j q hj).2
      rcases hwait j q hj hentered with hc | hc
      · rw [hc] at ha ⊢; rwa [max_eq_right ha] at he
      · rw [max_eq_left hc.2.le] at he
        rwa [le_antisymm hc.1 ha]

end Verif.Queued
