import Verif.Sphere.Lemmas

/-! # C44: crossing times on a straight leg -/

namespace Verif.Sphere

open Verif.Path

theorem sort2 (r1 r2 : ℝ) (h : r2 ≤ r1) : [r1, r2].insertionSort (· ≤ ·) = [r2, r1] := by
  simp only [List.insertionSort, List.foldr, List.orderedInsert]
  split
  · rename_i h'
    rw [le_antisymm h h']
  · rfl

theorem kept_eq (g : ℝ → V) (T : ℝ) (hT : 0 < T) (ts : List ℝ) (hs : ts.Pairwise (· ≤ ·)) :
    upTo (ts.map g) (ts.map fun t => t * T) T = (ts.filter (· ≤ 1)).map fun t => (g t, t * T) := by
  have hz : (ts.map g).zip (ts.map fun t => t * T) = ts.map fun t => (g t, t * T) := by
    rw [List.zip_map', ]
  have hsorted : (ts.map fun t => (g t, t * T)).insertionSort (fun p q => p.2 ≤ q.2) = ts.map fun t => (g t, t * T) := by
    refine List.Pairwise.insertionSort_eq ?_
    rw [List.pairwise_map]
    exact hs.imp fun h => mul_le_mul_of_nonneg_right h hT.le
  unfold upTo
  rw [hz, hsorted, List.filter_map]
  congr 1
  refine List.filter_congr fun t _ => ?_
  simp only [Function.comp, decide_eq_decide]
  constructor
  · intro h; by_contra hc; nlinarith [not_le.1 hc]
  · intro h; nlinarith

/-- The mover on the leg from `p` to `f` is at time `τ` within `r` of `c`. -/
def Within (p f c : V) (r v τ : ℝ) : Prop := ∃ X, At euclid p [f] (v * τ) X ∧ euclid X c ≤ r

theorem within_iff (p f c : V) (hpf : p ≠ f) (r v τ : ℝ) (hv : 0 < v) (h0 : 0 ≤ τ) (h1 : τ ≤ euclid p f / v) :
    Within p f c r v τ ↔ euclid (along p (sub f p) (τ / (euclid p f / v))) c ≤ r := by
  have hs : v * τ / euclid p f = τ / (euclid p f / v) := by field_simp
  have h1' : v * τ ≤ euclid p f := by rw [le_div_iff₀ hv] at h1; linarith
  constructor
  · rintro ⟨X, hX, hXc⟩
    rw [at_segment p f hpf _ X hX, hs] at hXc
    exact hXc
  · intro h
    exact ⟨_, segment_at p f hpf (v * τ) (by positivity) h1', by rw [hs]; exact h⟩

/-- Locations in distance units. -/
theorem raw_eq (k : ℝ) (l : Loc) (h : l.altUnits = false) : raw l = l.place k := by
  obtain ⟨x, y, z, b⟩ := l
  cases h; rfl

theorem crossing_outside (k : ℝ) (start finish sensor : Loc) (h1 : start.altUnits = false) (h2 : finish.altUnits = false) (h3 : sensor.altUnits = false)
    (r v : ℝ) (hr : 0 < r) (hv : 0 < v) (hpf : start.place k ≠ finish.place k)
    (hn : ¬ (euclid (start.place k) (sensor.place k) ≤ r ∧ euclid (finish.place k) (sensor.place k) ≤ r)) (ts : List ℝ)
    (hts : ∃ rs, roots (qa (start.place k) (finish.place k) r) (qb (start.place k) (finish.place k) (sensor.place k) r) (qc (start.place k) (sensor.place k) r) = some rs ∧
      (rs.filter (0 ≤ ·)).insertionSort (· ≤ ·) = ts) (T : ℝ) (hT : T = euclid (start.place k) (finish.place k) / v) :
    crossing k start finish v sensor r =
      if ts = [] ∨ ∀ t ∈ ts, 1 < t then some ⟨[], [], [.bad, .bad], -1⟩
      else
        let inters : List Loc := (if euclid (start.place k) (sensor.place k) ≤ r then [start] else []) ++
          ((ts.filter (· ≤ 1)).map fun t => (⟨(along (start.place k) (sub (finish.place k) (start.place k)) t).1, (along (start.place k) (sub (finish.place k) (start.place k)) t).2.1, (along (start.place k) (sub (finish.place k) (start.place k)) t).2.2, false⟩ : Loc)) ++
          (if euclid (finish.place k) (sensor.place k) ≤ r then [finish] else [])
        let us : List ℝ := (if euclid (start.place k) (sensor.place k) ≤ r then [0] else []) ++ (ts.filter (· ≤ 1)).map (fun t => t * T) ++
          (if euclid (finish.place k) (sensor.place k) ≤ r then [T] else [])
        if inters.length ≠ 2 then none
        else if us.length ≠ 2 then none
        else some ⟨inters, us, [if euclid (start.place k) (sensor.place k) ≤ r then .startInside else .enter,
          if euclid (finish.place k) (sensor.place k) ≤ r then .endInside else .exit], T⟩ := by
  obtain ⟨rs, hrs, hts⟩ := hts
  have hD : 0 < euclid (start.place k) (finish.place k) := lt_of_le_of_ne (euclid_nonneg _ _) fun hc => hpf (euclid_eq_zero hc.symm)
  have hTp : 0 < T := by rw [hT]; exact div_pos hD hv
  have hray := ray_eq _ _ _ hpf r hr v hv rs hrs
  rw [hts, ← hT] at hray
  have hsorted : ts.Pairwise (· ≤ ·) := by rw [← hts]; exact List.pairwise_insertionSort _ _
  unfold crossing
  rw [if_neg hv.ne']
  simp only [Loc.sub_eq, raw_eq k start h1, raw_eq k finish h2, raw_eq k sensor h3]
  rw [if_neg hn, hray]
  simp only [← hT]
  have hcond : (ts.map (along (start.place k) (sub (finish.place k) (start.place k))) = [] ∨ ∀ t ∈ ts.map (fun t => t * T), T < t) ↔ (ts = [] ∨ ∀ t ∈ ts, 1 < t) := by
    refine or_congr (by simp) ?_
    simp only [List.mem_map, forall_exists_index, and_imp, forall_apply_eq_imp_iff₂]
    refine forall₂_congr fun t _ => ?_
    constructor
    · intro h; by_contra hc; nlinarith [not_lt.1 hc]
    · intro h; nlinarith
  by_cases hc : ts = [] ∨ ∀ t ∈ ts, 1 < t
  · rw [if_pos hc, if_pos (hcond.2 hc)]
  · rw [if_neg hc, if_neg (fun h => hc (hcond.1 h)), kept_eq _ T hTp ts hsorted]
    simp only [List.map_map, Function.comp_def]

theorem qb_eq (p f c : V) (r : ℝ) : qb p f c r = 2 * dot (sub p c) (sub f p) / r ^ 2 := by
  simp only [qb, dot, sub, scaled]
  by_cases hr : r = 0
  · simp [hr]
  · field_simp

theorem qder_eq (p f c : V) (r : ℝ) (hr : 0 < r) : 2 * qa p f r + qb p f c r = 2 * dot (sub f c) (sub f p) / r ^ 2 := by
  simp only [qa, norm_sq, qb, dot, sub, scaled]
  field_simp
  ring

/-- **C44.** For a leg between different places which does not, starting on the sphere, go into or along it and out again, nor, ending on
the sphere, come through it, with positive speed and radius and all heights given in distance
units: there is no exception; the two times reported are those between which the mover is within the radius, and the locations reported
are its positions at these times; no crossing is reported exactly when the mover is never within the radius on the leg. The kinds say
whether the mover is inside at the ends of the leg. Missing: exactly the two kinds of leg left out (`c44_start_on_sphere`,
`c44_end_on_sphere`: exceptions), legs of length zero (`c44_no_leg`: an exception) and altitude units (`c44_altitude_units`). -/
theorem c44_exact_partial (k : ℝ) (start finish sensor : Loc) (h1 : start.altUnits = false) (h2 : finish.altUnits = false) (h3 : sensor.altUnits = false)
    (r v : ℝ) (hr : 0 < r) (hv : 0 < v) (p f c : V) (hp : p = start.place k) (hf : f = finish.place k) (hc : c = sensor.place k) (hpf : p ≠ f)
    (hp' : ¬ (euclid p c = r ∧ r < euclid f c ∧ dot (sub p c) (sub f p) ≤ 0)) (hf' : ¬ (euclid f c = r ∧ r < euclid p c ∧ 0 ≤ dot (sub f c) (sub f p))) (T : ℝ) (hT : T = euclid p f / v) :
    ∃ res, crossing k start finish v sensor r = some res ∧
      ((res.inters = [] ∧ res.times = [] ∧ res.types = [.bad, .bad] ∧ res.pathTime = -1 ∧ ∀ τ, 0 ≤ τ → τ ≤ T → ¬ Within p f c r v τ) ∨
       ∃ X₁ X₂ t₁ t₂, res.inters = [X₁, X₂] ∧ res.times = [t₁, t₂] ∧ res.pathTime = T ∧ 0 ≤ t₁ ∧ t₁ ≤ t₂ ∧ t₂ ≤ T ∧
         At euclid p [f] (v * t₁) (X₁.place k) ∧ At euclid p [f] (v * t₂) (X₂.place k) ∧
         (∀ τ, 0 ≤ τ → τ ≤ T → (Within p f c r v τ ↔ t₁ ≤ τ ∧ τ ≤ t₂)) ∧
         res.types = [if euclid p c ≤ r then .startInside else .enter, if euclid f c ≤ r then .endInside else .exit]) := by
  have hD : 0 < euclid p f := lt_of_le_of_ne (euclid_nonneg _ _) fun hc => hpf (euclid_eq_zero hc.symm)
  have hTp : 0 < T := by rw [hT]; exact div_pos hD hv
  have hvT : v * T = euclid p f := by rw [hT]; field_simp
  have hat : ∀ t, 0 ≤ t → t ≤ 1 → At euclid p [f] (v * (t * T)) (along p (sub f p) t) := fun t h0 h1 => by
    have := segment_at p f hpf (v * (t * T)) (by positivity) (by nlinarith)
    rwa [show v * (t * T) / euclid p f = t by rw [← hvT]; field_simp] at this
  have hwith : ∀ τ, 0 ≤ τ → τ ≤ T → (Within p f c r v τ ↔ qa p f r * (τ / T) ^ 2 + qb p f c r * (τ / T) + qc p c r ≤ 0) := fun τ h0 h1 => by
    rw [within_iff p f c hpf r v τ hv h0 (by rw [← hT]; exact h1), ← hT, inside_iff p f c r hr]
  have ha := qa_pos p f hpf r hr
  have hS := inside_iff p f c r hr 0
  have hF := inside_iff p f c r hr 1
  have hS' := on_iff p f c r hr 0
  have hF' := on_iff p f c r hr 1
  rw [along_zero] at hS hS'
  rw [along_one] at hF hF'
  have hap : start.place k = along p (sub f p) 0 := by rw [along_zero, hp]
  have haf : finish.place k = along p (sub f p) 1 := by rw [along_one, hf]
  have hpl : ∀ t, Loc.place k ⟨(along p (sub f p) t).1, (along p (sub f p) t).2.1, (along p (sub f p) t).2.2, false⟩ = along p (sub f p) t := fun t => rfl
  by_cases hd : qb p f c r ^ 2 - 4 * qa p f r * qc p c r < 0
  · -- the line misses the sphere
    have hout : ∀ t, ¬ qa p f r * t ^ 2 + qb p f c r * t + qc p c r ≤ 0 := fun t => not_le.2 (quad_pos _ _ _ t ha hd)
    have hrs : roots (qa p f r) (qb p f c r) (qc p c r) = some [] := by simp only [roots, if_pos hd]
    have heq := crossing_outside k start finish sensor h1 h2 h3 r v hr hv (hp ▸ hf ▸ hpf)
      (by rw [← hp, ← hc]; exact fun hc => hout 0 (hS.1 hc.1)) [] ⟨[], by rw [← hp, ← hf, ← hc]; exact hrs, by simp⟩ T (by rw [← hp, ← hf]; exact hT)
    refine ⟨_, by rw [heq, if_pos (.inl rfl)], .inl ⟨rfl, rfl, rfl, rfl, fun τ h0 h1 hw => ?_⟩⟩
    exact hout _ ((hwith τ h0 h1).1 hw)
  · have hd' := not_lt.1 hd
    -- the roots
    have hrs : roots (qa p f r) (qb p f c r) (qc p c r) = some [(-qb p f c r + √(qb p f c r ^ 2 - 4 * qa p f r * qc p c r)) / (2 * qa p f r),
        (-qb p f c r - √(qb p f c r ^ 2 - 4 * qa p f r * qc p c r)) / (2 * qa p f r)] := by
      simp only [roots, if_neg hd]
      rw [if_neg (by linarith)]
    have hfac := fun t => factor (qa p f r) (qb p f c r) (qc p c r) t ha.ne' hd'
    have hord : (-qb p f c r - √(qb p f c r ^ 2 - 4 * qa p f r * qc p c r)) / (2 * qa p f r) ≤
        (-qb p f c r + √(qb p f c r ^ 2 - 4 * qa p f r * qc p c r)) / (2 * qa p f r) := by
      refine div_le_div_of_nonneg_right ?_ (by linarith)
      have := Real.sqrt_nonneg (qb p f c r ^ 2 - 4 * qa p f r * qc p c r)
      linarith
    generalize (-qb p f c r + √(qb p f c r ^ 2 - 4 * qa p f r * qc p c r)) / (2 * qa p f r) = r1 at hrs hfac hord
    generalize (-qb p f c r - √(qb p f c r ^ 2 - 4 * qa p f r * qc p c r)) / (2 * qa p f r) = r2 at hrs hfac hord
    have hin : ∀ t, qa p f r * t ^ 2 + qb p f c r * t + qc p c r ≤ 0 ↔ r2 ≤ t ∧ t ≤ r1 := fun t => by rw [hfac]; exact quad_le _ _ _ t ha hord
    rw [hin] at hS hF
    have hzero : ∀ t, (r1 = t ∨ r2 = t) → qa p f r * t ^ 2 + qb p f c r * t + qc p c r = 0 := fun t h => by
      rw [hfac]; rcases h with h | h <;> rw [h] <;> ring
    have hsum : qb p f c r = -(qa p f r) * (r1 + r2) := by
      have e0 := hfac 0
      have e1 := hfac 1
      linarith
    have n20 : euclid p c ≤ r → ¬ euclid f c ≤ r → r2 ≠ 0 := fun _ hfi h => by
      refine hp' ⟨hS'.2 (hzero 0 (.inr h)), not_le.1 hfi, ?_⟩
      have hb := qb_eq p f c r
      rw [hsum, h, add_zero, eq_div_iff (by positivity)] at hb
      have : 0 ≤ qa p f r * r1 * r ^ 2 := by rw [h] at hord; positivity
      linarith
    have n11 : euclid f c ≤ r → ¬ euclid p c ≤ r → r1 ≠ 1 := fun _ hs h => by
      refine hf' ⟨hF'.2 (hzero 1 (.inl h)), not_le.1 hs, ?_⟩
      have hb := qder_eq p f c r hr
      rw [hsum, h, eq_div_iff (by positivity)] at hb
      have : 0 ≤ qa p f r * (1 - r2) * r ^ 2 := by
        have : 0 ≤ 1 - r2 := by linarith
        positivity
      linarith
    have hwith' : ∀ τ, 0 ≤ τ → τ ≤ T → (Within p f c r v τ ↔ r2 * T ≤ τ ∧ τ ≤ r1 * T) := fun τ h0 h1 => by
      rw [hwith τ h0 h1, hin, le_div_iff₀ hTp, div_le_iff₀ hTp]
    have key := fun (hn : ¬ (euclid p c ≤ r ∧ euclid f c ≤ r)) ts hts => crossing_outside k start finish sensor h1 h2 h3 r v hr hv (hp ▸ hf ▸ hpf)
      (by rw [← hp, ← hf, ← hc]; exact hn) ts ⟨[r1, r2], by rw [← hp, ← hf, ← hc]; exact hrs, hts⟩ T (by rw [← hp, ← hf]; exact hT)
    rw [← hp, ← hf, ← hc] at key
    by_cases hs : euclid p c ≤ r
    · by_cases hfi : euclid f c ≤ r
      · -- inside at both ends
        refine ⟨⟨[start, finish], [0, T], [.startInside, .endInside], T⟩, ?_, .inr ⟨start, finish, 0, T, rfl, rfl, rfl, le_refl _, hTp.le, le_refl _, ?_, ?_, ?_, ?_⟩⟩
        · unfold crossing
          simp only [Loc.sub_eq, ← hp, ← hf, ← hc, if_neg hv.ne', ← hT]
          rw [if_pos ⟨hs, hfi⟩]
        · rw [hap]; have := hat 0 (le_refl _) zero_le_one; rwa [zero_mul] at this
        · rw [haf]; have := hat 1 zero_le_one (le_refl _); rwa [one_mul] at this
        · intro τ h0 h1
          rw [hwith' τ h0 h1]
          have g1 := hS.1 hs
          have g2 := hF.1 hfi
          exact ⟨fun _ => ⟨h0, h1⟩, fun _ => ⟨by nlinarith, by nlinarith⟩⟩
        · simp only [if_pos hs, if_pos hfi]
      · -- leaves
        obtain ⟨g1, g2⟩ := hS.1 hs
        have g1 : r2 < 0 := lt_of_le_of_ne g1 (n20 hs hfi)
        have g3 : r1 < 1 := by
          by_contra hc
          exact hfi (hF.2 ⟨by linarith, not_lt.1 hc⟩)
        have heq := key (fun h => hfi h.2) [r1] (by simp [g2, not_le.2 g1])
        rw [if_neg (by simp [g3.le])] at heq
        simp only [List.filter_cons, List.filter_nil, decide_eq_true_eq, g3.le, if_pos, if_pos hs, if_neg hfi, List.map_cons, List.map_nil,
          List.append_nil, List.singleton_append, List.length_cons, List.length_nil] at heq
        refine ⟨_, heq, .inr ⟨start, _, 0, r1 * T, rfl, rfl, rfl, le_refl _, by positivity, by nlinarith, ?_, ?_, ?_, ?_⟩⟩
        · rw [hap]; have := hat 0 (le_refl _) zero_le_one; rwa [zero_mul] at this
        · rw [hpl]; exact hat r1 g2 g3.le
        · intro τ h0 h1
          rw [hwith' τ h0 h1]
          exact ⟨fun h => ⟨h0, h.2⟩, fun h => ⟨by nlinarith, h.2⟩⟩
        · simp only [if_pos hs, if_neg hfi]
    · by_cases hfi : euclid f c ≤ r
      · -- enters
        obtain ⟨g1, g2⟩ := hF.1 hfi
        have g2 : 1 < r1 := lt_of_le_of_ne g2 (n11 hfi hs).symm
        have g3 : 0 < r2 := by
          by_contra hc
          exact hs (hS.2 ⟨not_lt.1 hc, by linarith⟩)
        have heq := key (fun h => hs h.1) [r2, r1] (by
          rw [List.filter_eq_self.2 (by simp [g3.le, (by linarith : (0 : ℝ) ≤ r1)])]; exact sort2 r1 r2 hord)
        rw [if_neg (by simp [g1])] at heq
        simp only [List.filter_cons, List.filter_nil, decide_eq_true_eq, g1, not_le.2 g2, if_pos, if_neg hs, if_pos hfi, List.map_cons, List.map_nil,
          List.append_nil, List.nil_append, List.singleton_append, List.length_cons, List.length_nil, if_false] at heq
        refine ⟨_, heq, .inr ⟨_, finish, r2 * T, T, rfl, rfl, rfl, by positivity, by nlinarith, le_refl _, ?_, ?_, ?_, ?_⟩⟩
        · rw [hpl]; exact hat r2 g3.le g1
        · rw [haf]; have := hat 1 zero_le_one (le_refl _); rwa [one_mul] at this
        · intro τ h0 h1
          rw [hwith' τ h0 h1]
          exact ⟨fun h => ⟨h.1, h1⟩, fun h => ⟨h.1, by nlinarith⟩⟩
        · simp only [if_neg hs, if_pos hfi]
      · have n20' : r2 ≠ 0 := fun h => hs (hS.2 ⟨h.le, by rw [← h]; exact hord⟩)
        have n21' : r2 ≠ 1 := fun h => hfi (hF.2 ⟨h.le, by rw [← h]; exact hord⟩)
        rcases lt_or_gt_of_ne n20' with g | g
        · -- both behind
          have g1 : r1 < 0 := by
            by_contra hc
            exact hs (hS.2 ⟨g.le, not_lt.1 hc⟩)
          have heq := key (fun h => hs h.1) [] (by simp [not_le.2 g1, not_le.2 g])
          refine ⟨_, by rw [heq, if_pos (.inl rfl)], .inl ⟨rfl, rfl, rfl, rfl, fun τ h0 h1 hw => ?_⟩⟩
          have := ((hwith' τ h0 h1).1 hw).2
          nlinarith
        · have g0 : 0 < r1 := by linarith
          have hts : ([r1, r2].filter (0 ≤ ·)).insertionSort (· ≤ ·) = [r2, r1] := by
            rw [List.filter_eq_self.2 (by simp [g.le, g0.le])]; exact sort2 r1 r2 hord
          have heq := key (fun h => hs h.1) [r2, r1] hts
          rcases lt_or_gt_of_ne n21' with g1 | g1
          · -- passes through
            have g3 : r1 < 1 := by
              by_contra hc
              exact hfi (hF.2 ⟨g1.le, not_lt.1 hc⟩)
            rw [if_neg (by simp [g1.le])] at heq
            simp only [List.filter_cons, List.filter_nil, decide_eq_true_eq, g1.le, g3.le, if_pos, if_neg hs, if_neg hfi, List.map_cons, List.map_nil,
              List.append_nil, List.nil_append, List.length_cons, List.length_nil, if_false] at heq
            refine ⟨_, heq, .inr ⟨_, _, r2 * T, r1 * T, rfl, rfl, rfl, by positivity, by nlinarith, by nlinarith, ?_, ?_, ?_, ?_⟩⟩
            · rw [hpl]; exact hat r2 g.le g1.le
            · rw [hpl]; exact hat r1 g0.le g3.le
            · exact hwith'
            · simp only [if_neg hs, if_neg hfi]
          · -- both beyond
            refine ⟨_, by rw [heq, if_pos (.inr (by simp [g1]; linarith))], .inl ⟨rfl, rfl, rfl, rfl, fun τ h0 h1 hw => ?_⟩⟩
            have := ((hwith' τ h0 h1).1 hw).1
            nlinarith

theorem c44_hyps : (⟨-3, 1, 0, false⟩ : Loc).place 2 ≠ (⟨5, 1, 0, false⟩ : Loc).place 2 ∧
    euclid ((⟨-3, 1, 0, false⟩ : Loc).place 2) ((⟨0, 0, 0, false⟩ : Loc).place 2) ≠ 2 ∧
    euclid ((⟨5, 1, 0, false⟩ : Loc).place 2) ((⟨0, 0, 0, false⟩ : Loc).place 2) ≠ 2 := by
  refine ⟨by simp [Loc.place]; norm_num, fun h => ?_, fun h => ?_⟩
  · have := euclid_sq ((⟨-3, 1, 0, false⟩ : Loc).place 2) ((⟨0, 0, 0, false⟩ : Loc).place 2)
    rw [h] at this; simp only [Loc.place] at this; norm_num at this
  · have := euclid_sq ((⟨5, 1, 0, false⟩ : Loc).place 2) ((⟨0, 0, 0, false⟩ : Loc).place 2)
    rw [h] at this; simp only [Loc.place] at this; norm_num at this

/-- A case meeting the hypotheses: from (-3, 1, 0) to (5, 1, 0), past a sensor at the origin with radius 2. -/
example : ∃ res, crossing 2 ⟨-3, 1, 0, false⟩ ⟨5, 1, 0, false⟩ 4 ⟨0, 0, 0, false⟩ 2 = some res ∧ res.types = [.enter, .exit] := by
  obtain ⟨res, h, hr⟩ := c44_exact_partial 2 ⟨-3, 1, 0, false⟩ ⟨5, 1, 0, false⟩ ⟨0, 0, 0, false⟩ rfl rfl rfl 2 4 (by norm_num) (by norm_num) _ _ _ rfl rfl rfl
    c44_hyps.1 (fun h => c44_hyps.2.1 h.1) (fun h => c44_hyps.2.2 h.1) _ rfl
  have hlen : euclid ((⟨-3, 1, 0, false⟩ : Loc).place 2) ((⟨5, 1, 0, false⟩ : Loc).place 2) = 8 := by
    simp only [euclid, Loc.place]
    rw [show ((-3 : ℝ) - 5) ^ 2 + (1 - 1) ^ 2 + (0 - 0) ^ 2 = 8 ^ 2 by norm_num]
    exact Real.sqrt_sq (by norm_num)
  refine ⟨res, h, ?_⟩
  rcases hr with ⟨_, _, _, _, hn⟩ | ⟨_, _, _, _, _, _, _, _, _, _, _, _, _, ht⟩
  · refine absurd ?_ (hn (3 / 4) (by norm_num) (by rw [hlen]; norm_num))
    rw [within_iff _ _ _ c44_hyps.1 2 4 (3 / 4) (by norm_num) (by norm_num) (by rw [hlen]; norm_num), hlen]
    simp only [along, sub, euclid, Loc.place]
    rw [Real.sqrt_le_left (by norm_num)]
    norm_num
  · rw [ht, if_neg, if_neg]
    · simp only [euclid, Loc.place]
      rw [Real.sqrt_le_left (by norm_num)]
      norm_num
    · simp only [euclid, Loc.place]
      rw [Real.sqrt_le_left (by norm_num)]
      norm_num

/-- **C44 fails at the start of a leg exactly on the sphere.** A mover starting at distance exactly `r`, not moving away from the
sensor, and ending outside raises `MotionAndDetectionError` (three intersections) whatever the other values. -/
theorem c44_start_on_sphere (k : ℝ) (start finish sensor : Loc) (h1 : start.altUnits = false) (h2 : finish.altUnits = false) (h3 : sensor.altUnits = false)
    (r v : ℝ) (hr : 0 < r) (hv : 0 < v) (p f c : V) (hp : p = start.place k) (hf : f = finish.place k) (hc : c = sensor.place k)
    (hon : euclid p c = r) (hout : r < euclid f c) (htow : dot (sub p c) (sub f p) ≤ 0) :
    crossing k start finish v sensor r = none := by
  have hpf : p ≠ f := fun h => by rw [h] at hon; linarith
  have ha := qa_pos p f hpf r hr
  have h0 := (on_iff p f c r hr 0).1 (by rw [along_zero]; exact hon)
  have hc0 : qc p c r = 0 := by linarith
  have hb : qb p f c r ≤ 0 := by rw [qb_eq]; exact div_nonpos_of_nonpos_of_nonneg (by linarith) (by positivity)
  have hF := inside_iff p f c r hr 1
  rw [along_one] at hF
  have hr1 : -qb p f c r / qa p f r < 1 := by
    rw [div_lt_one ha]
    by_contra hcon
    exact not_le.2 hout (hF.2 (by linarith))
  have hr0 : 0 ≤ -qb p f c r / qa p f r := div_nonneg (by linarith) ha.le
  have hrs : roots (qa p f r) (qb p f c r) (qc p c r) = some [-qb p f c r / qa p f r, 0] := by
    simp only [roots, hc0, mul_zero, sub_zero]
    rw [if_neg (not_lt.2 (sq_nonneg _)), if_neg (by linarith), Real.sqrt_sq_eq_abs, abs_of_nonpos hb]
    congr 2
    · field_simp; ring
    · congr 1; ring
  rw [crossing_outside k start finish sensor h1 h2 h3 r v hr hv (hp ▸ hf ▸ hpf) (by rw [← hf, ← hc]; exact fun h => not_le.2 hout h.2)
    [0, -qb p f c r / qa p f r] ⟨_, by rw [← hp, ← hf, ← hc]; exact hrs, by
      rw [List.filter_eq_self.2 (by simp [hr0])]; exact sort2 _ _ hr0⟩ _ rfl]
  rw [if_neg (by simp)]
  simp only [← hp, ← hf, ← hc, if_pos hon.le, if_neg (not_le.2 hout)]
  rw [if_pos]
  simp [hr1.le]

/-- A case: from (-2, 0, 0), on the sphere of radius 2 about the origin, through it to (5, 0, 0). -/
example : crossing 2 ⟨-2, 0, 0, false⟩ ⟨5, 0, 0, false⟩ 1 ⟨0, 0, 0, false⟩ 2 = none := by
  refine c44_start_on_sphere 2 _ _ _ rfl rfl rfl 2 1 (by norm_num) (by norm_num) _ _ _ rfl rfl rfl ?_ ?_ ?_
  · simp only [euclid, Loc.place]
    rw [show ((-2 : ℝ) - 0) ^ 2 + (0 - 0) ^ 2 + (0 - 0) ^ 2 = 2 ^ 2 by norm_num]
    exact Real.sqrt_sq (by norm_num)
  · simp only [euclid, Loc.place]
    exact Real.lt_sqrt_of_sq_lt (by norm_num)
  · simp only [dot, sub, Loc.place]; norm_num

/-- **C44 fails at the end of a leg exactly on the sphere** if the mover has come through it: again three intersections. -/
theorem c44_end_on_sphere (k : ℝ) (start finish sensor : Loc) (h1 : start.altUnits = false) (h2 : finish.altUnits = false) (h3 : sensor.altUnits = false)
    (r v : ℝ) (hr : 0 < r) (hv : 0 < v) (p f c : V) (hp : p = start.place k) (hf : f = finish.place k) (hc : c = sensor.place k)
    (hon : euclid f c = r) (hout : r < euclid p c) (haway : 0 ≤ dot (sub f c) (sub f p)) :
    crossing k start finish v sensor r = none := by
  have hpf : p ≠ f := fun h => by rw [h] at hout; linarith
  have ha := qa_pos p f hpf r hr
  have h1' := (on_iff p f c r hr 1).1 (by rw [along_one]; exact hon)
  have hS := inside_iff p f c r hr 0
  rw [along_zero] at hS
  have hcp : 0 < qc p c r := by
    by_contra hcon
    exact not_le.2 hout (hS.2 (by linarith))
  -- the derivative of the quadratic at 1 is not negative
  have hder : 0 ≤ 2 * qa p f r + qb p f c r := by
    rw [qder_eq p f c r hr]; positivity
  have hd : qb p f c r ^ 2 - 4 * qa p f r * qc p c r = (2 * qa p f r + qb p f c r) ^ 2 := by
    have : qc p c r = -(qa p f r) - qb p f c r := by linarith
    rw [this]; ring
  have hrs : roots (qa p f r) (qb p f c r) (qc p c r) = some [1, qc p c r / qa p f r] := by
    simp only [roots]
    rw [hd, if_neg (not_lt.2 (sq_nonneg _)), if_neg (by linarith), Real.sqrt_sq hder]
    congr 2
    · field_simp; ring
    · congr 1
      rw [show qc p c r = -(qa p f r) - qb p f c r by linarith]
      field_simp; ring
  have hle : qc p c r / qa p f r ≤ 1 := by rw [div_le_one ha]; linarith
  have hpos : 0 ≤ qc p c r / qa p f r := (div_pos hcp ha).le
  rw [crossing_outside k start finish sensor h1 h2 h3 r v hr hv (hp ▸ hf ▸ hpf) (by rw [← hp, ← hc]; exact fun h => not_le.2 hout h.1)
    [qc p c r / qa p f r, 1] ⟨_, by rw [← hp, ← hf, ← hc]; exact hrs, by
      rw [List.filter_eq_self.2 (by simp [hpos])]; exact sort2 _ _ hle⟩ _ rfl]
  rw [if_neg (by simp)]
  simp only [← hp, ← hf, ← hc, if_pos hon.le, if_neg (not_le.2 hout)]
  rw [if_pos]
  simp [hle]

/-- A case: from (-5, 0, 0) through the sphere to its far side. -/
example : crossing 2 ⟨-5, 0, 0, false⟩ ⟨2, 0, 0, false⟩ 1 ⟨0, 0, 0, false⟩ 2 = none := by
  refine c44_end_on_sphere 2 _ _ _ rfl rfl rfl 2 1 (by norm_num) (by norm_num) _ _ _ rfl rfl rfl ?_ ?_ ?_
  · simp only [euclid, Loc.place]
    rw [show ((2 : ℝ) - 0) ^ 2 + (0 - 0) ^ 2 + (0 - 0) ^ 2 = 2 ^ 2 by norm_num]
    exact Real.sqrt_sq (by norm_num)
  · simp only [euclid, Loc.place]
    exact Real.lt_sqrt_of_sq_lt (by norm_num)
  · simp only [dot, sub, Loc.place]; norm_num

/-- **C44 fails for a leg of length zero outside the sphere**: a division by zero. -/
theorem c44_no_leg (k : ℝ) (start finish sensor : Loc) (h1 : start.altUnits = false) (h2 : finish.altUnits = false)
    (r v : ℝ) (hpf : start.place k = finish.place k) (hout : r < euclid (start.place k) (sensor.place k)) :
    crossing k start finish v sensor r = none := by
  unfold crossing
  by_cases hv : v = 0
  · rw [if_pos hv]
  · rw [if_neg hv]
    simp only [Loc.sub_eq]
    rw [if_neg (fun h => not_le.2 hout h.1)]
    suffices ray (raw start) (raw finish) (raw sensor) (r, r, r) v = none by rw [this]
    rw [raw_eq k start h1, raw_eq k finish h2, ← hpf]
    unfold ray
    by_cases hr : (r, r, r).1 = 0 ∨ (r, r, r).2.1 = 0 ∨ (r, r, r).2.2 = 0
    · rw [if_pos hr]
    · rw [if_neg hr]
      simp [roots, norm_sq, scaled, sub, dot]

example : crossing 2 ⟨3, 0, 0, false⟩ ⟨3, 0, 0, false⟩ 1 ⟨0, 0, 0, false⟩ 2 = none := by
  refine c44_no_leg 2 _ _ _ rfl rfl 2 1 rfl ?_
  simp only [euclid, Loc.place]
  exact Real.lt_sqrt_of_sq_lt (by norm_num)

/-- **A leg that enters exactly at its end** is reported: the entry and the end coincide. -/
theorem c44_end_entering (k : ℝ) (start finish sensor : Loc) (h1 : start.altUnits = false) (h2 : finish.altUnits = false) (h3 : sensor.altUnits = false)
    (r v : ℝ) (hr : 0 < r) (hv : 0 < v) (p f c : V) (hp : p = start.place k) (hf : f = finish.place k) (hc : c = sensor.place k)
    (hon : euclid f c = r) (hout : r < euclid p c) (htow : dot (sub f c) (sub f p) < 0) :
    crossing k start finish v sensor r =
      some ⟨[⟨f.1, f.2.1, f.2.2, false⟩, finish], [euclid p f / v, euclid p f / v], [.enter, .endInside], euclid p f / v⟩ := by
  have hpf : p ≠ f := fun h => by rw [h] at hout; linarith
  have ha := qa_pos p f hpf r hr
  have h1' := (on_iff p f c r hr 1).1 (by rw [along_one]; exact hon)
  have hder : 2 * qa p f r + qb p f c r < 0 := by
    rw [qder_eq p f c r hr]; exact div_neg_of_neg_of_pos (by linarith) (by positivity)
  have hd : qb p f c r ^ 2 - 4 * qa p f r * qc p c r = (2 * qa p f r + qb p f c r) ^ 2 := by
    have : qc p c r = -(qa p f r) - qb p f c r := by linarith
    rw [this]; ring
  have hrs : roots (qa p f r) (qb p f c r) (qc p c r) = some [qc p c r / qa p f r, 1] := by
    simp only [roots]
    rw [hd, if_neg (not_lt.2 (sq_nonneg _)), if_neg (by linarith), Real.sqrt_sq_eq_abs, abs_of_neg hder]
    congr 2
    · rw [show qc p c r = -(qa p f r) - qb p f c r by linarith]
      field_simp; ring
    · congr 1
      field_simp; ring
  have hgt : 1 < qc p c r / qa p f r := by rw [one_lt_div ha]; linarith
  rw [crossing_outside k start finish sensor h1 h2 h3 r v hr hv (hp ▸ hf ▸ hpf) (by rw [← hp, ← hc]; exact fun h => not_le.2 hout h.1)
    [1, qc p c r / qa p f r] ⟨_, by rw [← hp, ← hf, ← hc]; exact hrs, by
      rw [List.filter_eq_self.2 (by simp; linarith)]; exact sort2 _ _ hgt.le⟩ _ rfl]
  rw [if_neg (by simp)]
  simp only [← hp, ← hf, ← hc, if_pos hon.le, if_neg (not_le.2 hout), List.filter_cons, List.filter_nil, decide_eq_true_eq, le_refl, not_le.2 hgt, if_pos,
    List.map_cons, List.map_nil, along_one, one_mul, List.nil_append, List.singleton_append, List.length_cons, List.length_nil, if_false]
  simp

example : ∃ res, crossing 2 ⟨-5, 0, 0, false⟩ ⟨-2, 0, 0, false⟩ 1 ⟨0, 0, 0, false⟩ 2 = some res ∧ res.types = [.enter, .endInside] := by
  refine ⟨_, c44_end_entering 2 _ _ _ rfl rfl rfl 2 1 (by norm_num) (by norm_num) _ _ _ rfl rfl rfl ?_ ?_ ?_, rfl⟩
  · simp only [euclid, Loc.place]
    rw [show ((-2 : ℝ) - 0) ^ 2 + (0 - 0) ^ 2 + (0 - 0) ^ 2 = 2 ^ 2 by norm_num]
    exact Real.sqrt_sq (by norm_num)
  · simp only [euclid, Loc.place]
    exact Real.lt_sqrt_of_sq_lt (by norm_num)
  · simp only [dot, sub, Loc.place]; norm_num

/-- **C44 fails for altitude units.** The intersection is computed with the bare `z` fields: a mover climbing from the origin to
height 20 (10 altitude units of 2 distance units) passes through the sensor, and no crossing is reported. -/
theorem c44_altitude_units :
    Within ((⟨0, 0, 0, false⟩ : Loc).place 2) ((⟨10, 0, 10, true⟩ : Loc).place 2) ((⟨5, 0, 10, false⟩ : Loc).place 2) 1 1
        (euclid ((⟨0, 0, 0, false⟩ : Loc).place 2) ((⟨10, 0, 10, true⟩ : Loc).place 2) / 2) ∧
      crossing 2 ⟨0, 0, 0, false⟩ ⟨10, 0, 10, true⟩ 1 ⟨5, 0, 10, false⟩ 1 = some ⟨[], [], [.bad, .bad], -1⟩ := by
  have hne : (⟨0, 0, 0, false⟩ : Loc).place 2 ≠ (⟨10, 0, 10, true⟩ : Loc).place 2 := by simp [Loc.place]
  have hp := lt_of_le_of_ne (euclid_nonneg _ _) fun hc => hne (euclid_eq_zero hc.symm)
  constructor
  · rw [within_iff _ _ _ hne 1 1 _ one_pos (by linarith) (by linarith)]
    rw [show ∀ e : ℝ, e / 2 / (e / 1) = if e = 0 then 0 else 1 / 2 from fun e => by split <;> [simp_all; field_simp], if_neg hp.ne']
    simp only [euclid, along, sub, Loc.place]
    norm_num
  · have hn : ¬ ((1 : ℝ) ≤ 0) := by norm_num
    unfold crossing
    simp only [Loc.sub_eq]
    rw [if_neg one_ne_zero, if_neg]
    · have : ray (raw ⟨0, 0, 0, false⟩) (raw ⟨10, 0, 10, true⟩) (raw ⟨5, 0, 10, false⟩) (1, 1, 1) 1 = some ([], []) := by
        simp only [ray, raw, sub, scaled, norm_sq, dot, roots]
        norm_num
      simp [this]
    · rintro ⟨h, -⟩
      simp only [euclid, Loc.place] at h
      rw [Real.sqrt_le_left (by norm_num)] at h
      norm_num at h

end Verif.Sphere
