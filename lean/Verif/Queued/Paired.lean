import Verif.Queued.Accepts
import Verif.Queued.Cartesian

/-!
# C43: intersection models whose crossings always pair

If a model says for every leg whether its ends are inside, and agrees with itself about the point where two legs meet, then starting raises only
where the model does, whatever the path.
-/

namespace Verif.Queued

open Verif.Sphere (Tag)

variable {α L : Type} [Field α] [LinearOrder α]

/-- What is asked of the crossings of a leg from `w` to `w'`: none, and both ends outside; or one coming in and one going out, inside at the start or
end exactly as the point is. -/
def Consistent (inside : L → Prop) (w w' : L) (ks : List Tag) : Prop :=
  (ks = [] ∧ ¬ inside w ∧ ¬ inside w') ∨
    ∃ a b, ks = [a, b] ∧ (inside w ∧ a = .startInside ∨ ¬ inside w ∧ a = .enter) ∧ (inside w' ∧ b = .endInside ∨ ¬ inside w' ∧ b = .exit)

/-- Going out, then in and out by turns. -/
def OutFirst (l : List Tag) : Prop := ∃ b m, l = b :: m ∧ (b = .exit ∨ b = .endInside) ∧ InOut m

theorem joined_cons (k : Tag) (hk : k ≠ .endInside) (l : List Tag) : joined (k :: l) = (joined l).map (k :: ·) := by
  cases l with
  | nil => simp [joined]
  | cons k' l => rw [joined, if_neg hk]

theorem consistent_joined (I : Inter α L) (v : α) (s : Nat) (inside : L → Prop)
    (rest : List L) : ∀ (w : L) (ks : List Tag),
    (∀ pre a b post, w :: rest = pre ++ a :: b :: post → ∀ r, I a b v s = some r → Consistent inside a b (r.entries.map (·.kind))) →
    crossings I v s (w :: rest) = some ks →
      (inside w → ∃ l, joined (.endInside :: ks) = some l ∧ OutFirst l) ∧ ∃ l, joined ks = some l ∧ InOut l := by
  induction rest with
  | nil =>
    intro w ks hI h
    simp only [crossings, Option.some.injEq] at h
    subst h
    exact ⟨fun _ => ⟨_, rfl, _, _, rfl, .inr rfl, trivial⟩, _, rfl, trivial⟩
  | cons w' rest ih =>
    intro w ks hI h
    simp only [crossings] at h
    cases hr : I w w' v s with
    | none => rw [hr] at h; cases h
    | some r =>
      rw [hr, Option.bind_some] at h
      cases hc : crossings I v s (w' :: rest) with
      | none => rw [hc] at h; cases h
      | some ks1 =>
        rw [hc, Option.map_some, Option.some.injEq] at h
        subst h
        obtain ⟨ih1, l2, hl2, hio⟩ := ih w' ks1 (fun pre a b post e => hI (w :: pre) a b post (by rw [e]; rfl)) hc
        rcases hI [] w w' rest rfl r hr with ⟨he, ho, -⟩ | ⟨a, b, he, ha, hb⟩
        · rw [he, List.nil_append]
          exact ⟨fun hi => absurd hi ho, l2, hl2, hio⟩
        · rw [he]
          have hb' : ∃ l, joined (b :: ks1) = some l ∧ OutFirst l := by
            rcases hb with ⟨hi, rfl⟩ | ⟨-, rfl⟩
            · exact ih1 hi
            · exact ⟨.exit :: l2, by rw [joined_cons _ (by decide), hl2]; rfl, _, _, rfl, .inl rfl, hio⟩
          obtain ⟨l, hl, hout⟩ := hb'
          constructor
          · intro hi
            rcases ha with ⟨-, rfl⟩ | ⟨hn, -⟩
            · exact ⟨l, by simpa [joined] using hl, hout⟩
            · exact absurd hi hn
          · obtain ⟨c, m, rfl, hc1, hm⟩ := hout
            have ha' : a = .enter ∨ a = .startInside := by
              rcases ha with ⟨-, h⟩ | ⟨-, h⟩
              exacts [.inr h, .inl h]
            refine ⟨a :: c :: m, ?_, ha', hc1, hm⟩
            show joined (a :: b :: ks1) = _
            rw [joined_cons a (by rcases ha' with rfl | rfl <;> decide), hl]
            rfl

theorem consistent_path (I : Inter α L) (v : α) (s : Nat) (inside : L → Prop) (ws : List L)
    (hI : ∀ pre w w' post, ws = pre ++ w :: w' :: post → ∀ r, I w w' v s = some r → Consistent inside w w' (r.entries.map (·.kind))) :
    (∃ ks, crossings I v s ws = some ks ∧ ∃ l, joined ks = some l ∧ InOut l) ↔ ∀ pre w w' post, ws = pre ++ w :: w' :: post → I w w' v s ≠ none := by
  have hc : (crossings I v s ws).isSome ↔ ∀ pre w w' post, ws = pre ++ w :: w' :: post → I w w' v s ≠ none := by
    clear hI
    induction ws with
    | nil => simp [crossings]
    | cons w ws ih =>
      cases ws with
      | nil =>
        refine ⟨fun _ pre x x' post h => ?_, fun _ => rfl⟩
        cases pre with
        | nil => simp at h
        | cons _ pre => cases pre <;> simp at h
      | cons w' ws =>
        simp only [crossings]
        constructor
        · intro h pre x x' post e
          cases hr : I w w' v s with
          | none => rw [hr] at h; cases h
          | some r =>
            rw [hr] at h
            cases pre with
            | nil =>
              simp only [List.nil_append, List.cons.injEq] at e
              obtain ⟨rfl, rfl, -⟩ := e
              rw [hr]; simp
            | cons p pre =>
              simp only [List.cons_append, List.cons.injEq] at e
              exact ih.1 (by simpa using h) pre x x' post e.2
        · intro h
          have h1 := h [] w w' ws rfl
          obtain ⟨r, hr⟩ := Option.ne_none_iff_exists'.1 h1
          rw [hr]
          simpa using ih.2 fun pre x x' post e => h (w :: pre) x x' post (by rw [e]; rfl)
  rw [← hc]
  constructor
  · rintro ⟨ks, h, -⟩
    rw [h]; rfl
  · intro h
    obtain ⟨ks, hk⟩ := Option.isSome_iff_exists.1 h
    refine ⟨ks, hk, ?_⟩
    cases ws with
    | nil =>
      simp only [crossings, Option.some.injEq] at hk
      subst hk
      exact ⟨[], rfl, trivial⟩
    | cons w ws => exact (consistent_joined I v s inside ws w ks hI hk).2

/-- **C43, consistent models.** With an intersection model that is consistent for every sensor on the legs of a path, a detectable mover that is not moving starts along the
path without an error exactly when the model raises on none of its legs. -/
theorem c43_consistent (I : Inter α L) (σ : St α L) (m : Nat) (v : α) (ws : List L) (hd : σ.detect m = some true) (hm : σ.movers.has m = false)
    (inside : Nat → L → Prop) (hI : ∀ s ∈ σ.sensors, ∀ pre w w' post, ws = pre ++ w :: w' :: post → ∀ r, I w w' v s = some r → Consistent (inside s) w w' (r.entries.map (·.kind))) :
    (step I σ (.start m v ws)).2 = .ok ↔ ∀ s ∈ σ.sensors, ∀ pre w w' post, ws = pre ++ w :: w' :: post → I w w' v s ≠ none := by
  rw [(c43_accepted_path I σ m v ws hd hm).1]
  exact forall_congr' fun s => forall_congr' fun hs => consistent_path I v s (inside s) ws (hI s hs)

open Verif.Path Verif.Sphere in
/-- The legs on which `cartesian_linear_intersection` raises: of no length and out of range, touching the sphere first where they start and going
into or along it and out again, or coming through it to end on it. -/
def Raising (k : ℝ) (a b : Loc) (c : V) (r : ℝ) : Prop :=
  (a.place k = b.place k ∧ r < euclid (a.place k) c) ∨
  (euclid (a.place k) c = r ∧ r < euclid (b.place k) c ∧ dot (sub (a.place k) c) (sub (b.place k) (a.place k)) ≤ 0) ∨
  (euclid (b.place k) c = r ∧ r < euclid (a.place k) c ∧ 0 ≤ dot (sub (b.place k) c) (sub (b.place k) (a.place k)))

open Verif.Path Verif.Sphere in
theorem cart_leg (k : ℝ) (place : Nat → Loc) (radius : Nat → ℝ) (s : Nat) (hs : (place s).altUnits = false) (hr : 0 < radius s) (v : ℝ) (hv : 0 < v)
    (a b : Loc) (ha : a.altUnits = false) (hb : b.altUnits = false) :
    (Raising k a b ((place s).place k) (radius s) ∧ cartI k place radius a b v s = none) ∨
    (¬ Raising k a b ((place s).place k) (radius s) ∧ ∃ r, cartI k place radius a b v s = some r ∧
      Consistent (fun l : Loc => euclid (l.place k) ((place s).place k) ≤ radius s) a b (r.entries.map (·.kind))) := by
  by_cases hR : Raising k a b ((place s).place k) (radius s)
  · refine .inl ⟨hR, ?_⟩
    unfold cartI
    rcases hR with ⟨h, ho⟩ | ⟨h1, h2, h3⟩ | ⟨h1, h2, h3⟩
    · rw [c44_no_leg k a b (place s) ha hb _ v h ho]; rfl
    · rw [c44_start_on_sphere k a b (place s) ha hb hs _ v hr hv _ _ _ rfl rfl rfl h1 h2 h3]; rfl
    · rw [c44_end_on_sphere k a b (place s) ha hb hs _ v hr hv _ _ _ rfl rfl rfl h1 h2 h3]; rfl
  · refine .inr ⟨hR, ?_⟩
    simp only [Raising, not_or] at hR
    obtain ⟨hn, hp, hf⟩ := hR
    by_cases hab : a.place k = b.place k
    · have hi : euclid (a.place k) ((place s).place k) ≤ radius s := not_lt.1 fun h => hn ⟨hab, h⟩
      have hi' : euclid (b.place k) ((place s).place k) ≤ radius s := hab ▸ hi
      refine ⟨⟨[⟨.startInside, 0⟩, ⟨.endInside, b.sub k a / v⟩], b.sub k a / v⟩, ?_, .inr ⟨.startInside, .endInside, rfl, .inl ⟨hi, rfl⟩, .inl ⟨hi', rfl⟩⟩⟩
      unfold cartI crossing
      rw [if_neg hv.ne']
      simp only [Loc.sub_eq]
      rw [if_pos ⟨hi, hi'⟩]
      rfl
    · obtain ⟨res, hres, hcase⟩ := c44_exact_partial k a b (place s) ha hb hs (radius s) v hr hv _ _ _ rfl rfl rfl hab hp hf _ rfl
      have hT : 0 ≤ euclid (a.place k) (b.place k) / v := div_nonneg (euclid_nonneg _ _) hv.le
      have hD : euclid (a.place k) (b.place k) ≠ 0 := fun h => hab (euclid_eq_zero h)
      unfold cartI
      rw [hres]
      refine ⟨_, rfl, ?_⟩
      rcases hcase with ⟨e1, e2, e3, -, hw⟩ | ⟨X₁, X₂, t₁, t₂, e1, e2, -, -, -, -, -, -, -, e3⟩
      · refine .inl ⟨by simp [e1, e2, e3], fun h => hw 0 le_rfl hT ?_, fun h => hw _ hT le_rfl ?_⟩
        · rw [within_iff _ _ _ hab _ _ _ hv le_rfl hT, zero_div, along_zero]
          exact h
        · rw [within_iff _ _ _ hab _ _ _ hv hT le_rfl, div_self (div_ne_zero hD hv.ne'), along_one]
          exact h
      · refine .inr ⟨_, _, by simp only [e1, e2, e3]; rfl, ?_, ?_⟩
        · by_cases h : euclid (a.place k) ((place s).place k) ≤ radius s
          · exact .inl ⟨h, if_pos h⟩
          · exact .inr ⟨h, if_neg h⟩
        · by_cases h : euclid (b.place k) ((place s).place k) ≤ radius s
          · exact .inl ⟨h, if_pos h⟩
          · exact .inr ⟨h, if_neg h⟩

open Verif.Path Verif.Sphere in
/-- **C43, which cartesian paths are accepted.** With `cartesian_linear_intersection`, positive speed and radii and heights in distance units, a
detectable mover that is not moving starts along a path without an error exactly when no leg of it is one of the three kinds on which the
intersection itself raises, for any of the sensors: pairing the crossings of the legs never fails. -/
theorem c43_cartesian_accepts (k : ℝ) (place : Nat → Loc) (radius : Nat → ℝ) (σ : St ℝ Loc) (m : Nat) (v : ℝ) (hv : 0 < v) (ws : List Loc)
    (hd : σ.detect m = some true) (hm : σ.movers.has m = false) (hs : ∀ s ∈ σ.sensors, (place s).altUnits = false ∧ 0 < radius s)
    (hw : ∀ l ∈ ws, l.altUnits = false) :
    (step (cartI k place radius) σ (.start m v ws)).2 = .ok ↔
      ∀ s ∈ σ.sensors, ∀ pre a b post, ws = pre ++ a :: b :: post →
        ¬ (a.place k = b.place k ∧ radius s < euclid (a.place k) ((place s).place k)) ∧
        ¬ (euclid (a.place k) ((place s).place k) = radius s ∧ radius s < euclid (b.place k) ((place s).place k) ∧
          dot (sub (a.place k) ((place s).place k)) (sub (b.place k) (a.place k)) ≤ 0) ∧
        ¬ (euclid (b.place k) ((place s).place k) = radius s ∧ radius s < euclid (a.place k) ((place s).place k) ∧
          0 ≤ dot (sub (b.place k) ((place s).place k)) (sub (b.place k) (a.place k))) := by
  rw [c43_consistent (cartI k place radius) σ m v ws hd hm (fun s l => euclid (l.place k) ((place s).place k) ≤ radius s)]
  · refine forall_congr' fun s => forall_congr' fun h => forall_congr' fun pre => forall_congr' fun a => forall_congr' fun b =>
      forall_congr' fun post => forall_congr' fun e => ?_
    have := cart_leg k place radius s (hs s h).1 (hs s h).2 v hv a b (hw a (by rw [e]; simp)) (hw b (by rw [e]; simp))
    rw [← not_or, ← not_or]
    rcases this with ⟨hR, hn⟩ | ⟨hR, r, hr, -⟩
    · exact ⟨fun h => absurd hn h, fun h => absurd hR h⟩
    · exact ⟨fun _ => hR, fun _ => by rw [hr]; simp⟩
  · intro s h pre a b post e r hr
    have ha : a ∈ ws := by rw [e]; simp
    have hb : b ∈ ws := by rw [e]; simp
    rcases cart_leg k place radius s (hs s h).1 (hs s h).2 v hv a b (hw a ha) (hw b hb) with ⟨-, hn⟩ | ⟨-, r', hr', hc⟩
    · rw [hn] at hr; cases hr
    · rw [hr, Option.some.injEq] at hr'
      rwa [hr']

open Verif.Path Verif.Sphere in
/-- **C43, which sensors are accepted, cartesian.** With `cartesian_linear_intersection`, in any state whose movers have positive speeds and heights in
distance units, adding a sensor of positive radius ends without an error exactly when no leg of the path of a mover is, for it, of the three
kinds of `c43_cartesian_accepts`. -/
theorem c43_cartesian_accepts_sensor (k : ℝ) (place : Nat → Loc) (radius : Nat → ℝ) (σ : St ℝ Loc) (s : Nat) (hs : (place s).altUnits = false)
    (hr : 0 < radius s) (hw : ∀ m t, σ.movers.get? m = some t → 0 < t.speed ∧ ∀ l ∈ t.waypoints, l.altUnits = false) :
    (step (cartI k place radius) σ (.addSensor s)).2 = .ok ↔
      ∀ m t, σ.movers.get? m = some t → ∀ pre a b post, t.waypoints = pre ++ a :: b :: post →
        ¬ (a.place k = b.place k ∧ radius s < euclid (a.place k) ((place s).place k)) ∧
        ¬ (euclid (a.place k) ((place s).place k) = radius s ∧ radius s < euclid (b.place k) ((place s).place k) ∧
          dot (sub (a.place k) ((place s).place k)) (sub (b.place k) (a.place k)) ≤ 0) ∧
        ¬ (euclid (b.place k) ((place s).place k) = radius s ∧ radius s < euclid (a.place k) ((place s).place k) ∧
          0 ≤ dot (sub (b.place k) ((place s).place k)) (sub (b.place k) (a.place k))) := by
  rw [(c43_accepted_sensor (cartI k place radius) σ s).1]
  refine forall_congr' fun m => forall_congr' fun t => forall_congr' fun ht => ?_
  obtain ⟨hv, hl⟩ := hw m t ht
  rw [consistent_path (cartI k place radius) t.speed s (fun l => euclid (l.place k) ((place s).place k) ≤ radius s)]
  · refine forall_congr' fun pre => forall_congr' fun a => forall_congr' fun b => forall_congr' fun post => forall_congr' fun e => ?_
    have := cart_leg k place radius s hs hr t.speed hv a b (hl a (by rw [e]; simp)) (hl b (by rw [e]; simp))
    rw [← not_or, ← not_or]
    rcases this with ⟨hR, hn⟩ | ⟨hR, r, hr, -⟩
    · exact ⟨fun h => absurd hn h, fun h => absurd hR h⟩
    · exact ⟨fun _ => hR, fun _ => by rw [hr]; simp⟩
  · intro pre a b post e r hr'
    have ha : a ∈ t.waypoints := by rw [e]; simp
    have hb : b ∈ t.waypoints := by rw [e]; simp
    rcases cart_leg k place radius s hs hr t.speed hv a b (hl a ha) (hl b hb) with ⟨-, hn⟩ | ⟨-, r', hr'', hc⟩
    · rw [hn] at hr'; cases hr'
    · rw [hr', Option.some.injEq] at hr''
      rwa [hr'']

open Verif.Path Verif.Sphere in
/-- Non-vacuity: past a sensor of radius 1, from `-3` by its place to `3` is accepted, in two legs that meet inside; from `-3` to `1`, ending on the
far side of the sphere, and then on is not. -/
example : (step demoI demo0 (.start 1 1 [demoP, ⟨0, 0, 0, false⟩, demoF])).2 = .ok ∧
    (step demoI demo0 (.start 1 1 [demoP, ⟨1, 0, 0, false⟩, demoF])).2 ≠ .ok := by
  have e : demo0 = { (St.init 0 fun _ => some true : St ℝ Loc) with sensors := [7] } := by simp [demo0, run, step, addSensor, find, St.init, Dict.keys]
  have hd : demo0.detect 1 = some true := by rw [e]; rfl
  have hm : demo0.movers.has 1 = false := by rw [e]; rfl
  have hs : demo0.sensors = [7] := by rw [e]
  have key := fun ws hw => c43_cartesian_accepts 2 (fun _ => ⟨0, 0, 0, false⟩) (fun _ => 1) demo0 1 1 one_pos ws hd hm (fun _ _ => ⟨rfl, one_pos⟩) hw
  constructor
  · refine (key _ (by simp [demoP, demoF])).2 ?_
    intro s _ pre a b post h
    have : (a = demoP ∧ b = ⟨0, 0, 0, false⟩) ∨ (a = ⟨0, 0, 0, false⟩ ∧ b = demoF) := by
      match pre, h with
      | [], h => simp at h; exact .inl ⟨h.1.symm, h.2.1.symm⟩
      | [_], h => simp at h; exact .inr ⟨h.2.1.symm, h.2.2.1.symm⟩
      | [_, _], h => simp at h
      | _ :: _ :: _ :: _, h => simp at h
    rcases this with ⟨rfl, rfl⟩ | ⟨rfl, rfl⟩ <;> simp only [demoP, demoF, Loc.place, Bool.false_eq_true, if_false] <;>
      refine ⟨fun h => ?_, fun h => ?_, fun h => ?_⟩ <;> simp only [demo_euclid, Prod.mk.injEq] at h <;> norm_num at h
  · intro h
    have := ((key _ (by simp [demoP, demoF])).1 h 7 (by simp [hs]) [] _ _ _ rfl).2.2
    apply this
    simp only [demoP, Loc.place, Bool.false_eq_true, if_false]
    simp only [demo_euclid, dot, sub]
    norm_num

open Verif.Path Verif.Sphere in
/-- A sensor added while the mover goes from `-3` to `1`: raises; while it goes from `-3` to `3`: does not. -/
example : (step demoI (step demoI (St.init 0 fun _ => some true) (.start 1 1 [demoP, ⟨1, 0, 0, false⟩])).1 (.addSensor 7)).2 ≠ .ok ∧
    (step demoI (step demoI (St.init 0 fun _ => some true) (.start 1 1 [demoP, demoF])).1 (.addSensor 7)).2 = .ok := by
  have hmv : ∀ ws : List Loc, (step demoI (St.init 0 fun _ => some true) (.start 1 1 ws)).1.movers = Dict.set [] 1 ⟨1, ws, 0⟩ := by
    intro ws
    simp [step, startMover, St.init, find, Dict.has]
  have hget : ∀ (ws : List Loc) m t, (step demoI (St.init 0 fun _ => some true) (.start 1 1 ws)).1.movers.get? m = some t → t = ⟨1, ws, 0⟩ := by
    intro ws m t h
    rw [hmv] at h
    by_cases hm : m = 1
    · subst hm; simpa using h.symm
    · simp [Dict.set, Dict.get?] at h
      exact h.2.symm
  have key := fun ws (hw : ∀ l ∈ ws, l.altUnits = false) => c43_cartesian_accepts_sensor 2 (fun _ => ⟨0, 0, 0, false⟩) (fun _ => 1)
    (step demoI (St.init 0 fun _ => some true) (.start 1 1 ws)).1 7 rfl one_pos
    (fun m t h => by rw [hget ws m t h]; exact ⟨one_pos, hw⟩)
  constructor
  · intro h
    have := ((key _ (by simp [demoP])).1 h 1 _ (by rw [hmv]; simp; rfl) [] _ _ _ rfl).2.2
    apply this
    simp only [demoP, Loc.place, Bool.false_eq_true, if_false]
    simp only [demo_euclid, dot, sub]
    norm_num
  · refine (key _ (by simp [demoP, demoF])).2 ?_
    intro m t ht pre a b post h
    rw [hget _ m t ht] at h
    have : a = demoP ∧ b = demoF := by
      match pre, h with
      | [], h => simp at h; exact ⟨h.1.symm, h.2.1.symm⟩
      | [_], h => simp at h
      | _ :: _ :: _, h => simp at h
    obtain ⟨rfl, rfl⟩ := this
    simp only [demoP, demoF, Loc.place, Bool.false_eq_true, if_false]
    refine ⟨fun h => ?_, fun h => ?_, fun h => ?_⟩ <;> simp only [demo_euclid, Prod.mk.injEq] at h <;> norm_num at h

end Verif.Queued
