import Verif.Subdiv.Sphere

/-! # C72: numerical intersections on the spherical earth -/

namespace Verif.Subdiv

open Verif.Globe Verif.Path Verif.Crossing Real InnerProductGeometry

/-- The direction in which a leg leaves. -/
noncomputable def dir (s f : Geo) : E3 := heading (s.toDegrees.lat, s.toDegrees.lon) (bearing (s.toDegrees.lat, s.toDegrees.lon) (f.toDegrees.lat, f.toDegrees.lon))

theorem spot_norm (s : Geo) : inner ℝ (spot s) (spot s) = 1 := place_inner_self _
theorem dir_norm (s f : Geo) : inner ℝ (dir s f) (dir s f) = 1 := heading_norm _ _
theorem spot_dir (s f : Geo) : inner ℝ (spot s) (dir s f) = 0 := heading_place _ _

theorem spot_target (s f : Geo) : spot f = arc (spot s) (dir s f) (angleOf s f) := target_eq _ _

theorem travel_arc {s f : Geo} (h : sin (angleOf s f) ≠ 0) (θ : ℝ) : travel s f θ = arc (spot s) (dir s f) θ := by
  unfold travel
  have e : spot f - cos (angleOf s f) • spot s = sin (angleOf s f) • dir s f := by
    rw [sub_eq_iff_eq_add, add_comm]; exact spot_target s f
  rw [e, smul_smul, div_mul_cancel₀ _ h]
  rfl

theorem sub_eq (k : ℝ) (g h : Geo) : Geo.sub (spherical k) g h = R * angleOf g h / k := distance_eq k _ _

/-- The answer, taken apart. -/
theorem subdivide_ok {k ka v r : ℝ} {s f c : Geo} {ans : Answer} (h : subdivide k ka s f v c r = .ok ans) :
    v ≠ 0 ∧ ∃ l, intersections (globe (toTuple ka c) (r * k)) (toTuple ka s) (toTuple ka f) 9260 [10, 20] = .ok l ∧
      ((l = [] ∧ ans = .bad) ∨ (l ≠ [] ∧ ans = .hits (l.map (hit k ka v s)) (Geo.sub (spherical k) f s / v))) := by
  unfold subdivide at h
  simp only at h
  split at h
  · cases h
  · rename_i hv
    refine ⟨hv, ?_⟩
    cases hi : intersections (globe (toTuple ka c) (r * k)) (toTuple ka s) (toTuple ka f) 9260 [10, 20] with
    | error e => rw [hi] at h; cases h
    | ok l =>
      rw [hi] at h
      simp only at h
      split at h
      · rename_i hl; cases h; exact ⟨l, rfl, .inl ⟨hl, rfl⟩⟩
      · rename_i hl; cases h; exact ⟨l, rfl, .inr ⟨hl, rfl⟩⟩

theorem forall₂_right {α β : Type} {Q : α → β → Prop} {l : List α} {m : List β} (h : List.Forall₂ Q l m) : ∀ y ∈ m, ∃ x ∈ l, Q x y := by
  induction h with
  | nil => simp
  | cons h _ ih =>
    intro y hy
    rcases List.mem_cons.1 hy with rfl | hy
    · exact ⟨_, List.mem_cons_self, h⟩
    · obtain ⟨x, hx, hq⟩ := ih y hy; exact ⟨x, List.mem_cons_of_mem _ hx, hq⟩

theorem forall₂_kinds {E : Crossing.Earth ℝ Lla} {l m : List (Cond Lla)} (h : List.Forall₂ (Found E) l m) : m.map (·.kind) = l.map (·.kind) := by
  induction h with
  | nil => rfl
  | cons h _ ih => obtain ⟨e, new, -, -, -, -, hk, -⟩ := h; simp [hk, ih]

/-- The refined location of one crossing. -/
theorem found_on {x u : E3} (hx : inner ℝ x x = 1) (hu : inner ℝ u u = 1) (hxu : inner ℝ x u = 0) {c : Lla} {r : ℝ} {cc m : Cond Lla} {z : Lla} {θy θz A B : ℝ}
    (hm : Found (globe c r) cc m) (hz : cc.e = some z) (py : place cc.b.1 = arc x u θy) (pz : place z.1 = arc x u θz) (hlt : θy < θz)
    (hle : θz - θy ≤ π - 1 / 10 ^ 6 + 4 / 10 ^ 8) (ay : cc.b.2 ∈ Set.uIcc A B) (az : z.2 ∈ Set.uIcc A B) :
    ∃ θ θ' h', place m.b.1 = arc x u θ ∧ θy ≤ θ ∧ θ ≤ θz + 8 / 10 ^ 8 ∧ θy ≤ θ' ∧ θ' ≤ θz + 8 / 10 ^ 8 ∧ m.b.2 ∈ Set.uIcc A B ∧ h' ∈ Set.uIcc A B ∧
      InRange r ((R + c.2) • place c.1) (arc x u θ) m.b.2 ∧ ¬ InRange r ((R + c.2) • place c.1) (arc x u θ') h' ∧
      ((m.kind = .enter ∧ θ' < θ ∧ R * (θ - θ') ≤ 46.4) ∨ (m.kind = .exit ∧ θ < θ' ∧ R * (θ' - θ) ≤ 46.4)) := by
  have hR : R = 6378137 := rfl
  have hRp := R_pos
  obtain ⟨e, new, he, -, hs, hk1, hk2, hb⟩ := hm
  rw [hz] at he
  cases he
  obtain ⟨n₁, x₁, y₁, n₂, w, p1, r1, q1, p2, r2, q2, fl⟩ := split_two (globe_nonempty c r) hs
  have d1 : (globe c r).dist cc.b z = R * (θz - θy) := dist_on hx hu hxu py pz hlt.le (by norm_num at hle ⊢; linarith)
  obtain ⟨g1, g1'⟩ := pointsFor_long (by norm_num) p1
  rw [d1] at g1
  obtain ⟨θ₁, θ₂, b1, b2, b3, b4, b5, -, b7, b8⟩ := nb_on hx hu hxu py pz (by rw [hR] at g1; norm_num at g1 ⊢; linarith)
    (by norm_num at hle ⊢; linarith) (by omega) r1 q1
  have d2 : (globe c r).dist x₁ y₁ = R * (θ₂ - θ₁) := dist_on hx hu hxu b1 b2 b4.le (by norm_num at hle b5 ⊢; linarith)
  obtain ⟨g2, g2'⟩ := pointsFor_long (by norm_num) p2
  obtain ⟨-, hsp⟩ := pointsFor_spec _ _ (by norm_num) _ p2
  rw [d2] at g2 hsp
  obtain ⟨θ₃, θ₄, e1, e2, e3, e4, e5, e6, e7, e8⟩ := nb_on hx hu hxu b1 b2 (by rw [hR] at g2; norm_num at g2 ⊢; linarith)
    (by norm_num at hle b5 ⊢; linarith) (by omega) r2 q2
  have hsub : ∀ {t}, t ∈ Set.uIcc x₁.2 y₁.2 → t ∈ Set.uIcc A B := fun ht =>
    (Set.uIcc_subset_uIcc (Set.uIcc_subset_uIcc ay az b7) (Set.uIcc_subset_uIcc ay az b8)) ht
  have hstep : R * (θ₄ - θ₃) ≤ 46.4 := by
    have hn : (3 : ℝ) ≤ n₂ := by exact_mod_cast g2'
    have hn0 : (0 : ℝ) < n₂ := by linarith
    have h1 : (θ₂ - θ₁) / n₂ * R ≤ 46.3 := by
      rw [div_mul_eq_mul_div, div_le_iff₀ hn0]; linarith
    have h2 : (4 : ℝ) / 10 ^ 8 / n₂ ≤ 4 / 10 ^ 8 / 3 := by gcongr
    have h3 := mul_le_mul_of_nonneg_left (e6.trans (add_le_add_right h2 _)) hRp.le
    rw [hR] at h1 h3 ⊢
    norm_num at h1 h3 ⊢
    linarith
  have h8 : θ₄ ≤ θz + 8 / 10 ^ 8 := by norm_num at b5 e5 ⊢; linarith
  have in1 := globe_inside c r new.b
  have in2 := globe_inside c r w
  have out1 := globe_outside c r new.b
  have out2 := globe_outside c r w
  rw [e1] at in1 out1
  rw [e2] at in2 out2
  cases hi1 : (globe c r).inside new.b <;> cases hi2 : (globe c r).inside w <;> simp only [Crossing.flip, hi1, hi2, reduceCtorEq, Option.some.injEq] at fl
  · have kk : cc.kind = .enter := by rw [← hk1, ← fl]
    have ew : new.e = some w := by rw [← fl]
    rw [kk, ew] at hb
    simp only [reduceCtorEq, if_false, Option.some.injEq] at hb
    rw [← hb]
    exact ⟨θ₄, θ₃, new.b.2, e2, by linarith, h8, by linarith, by linarith, hsub e8, hsub e7, in2.1 hi2, out1.1 hi1, .inl ⟨hk2.trans kk, e4, hstep⟩⟩
  · have kk : cc.kind = .exit := by rw [← hk1, ← fl]
    rw [kk] at hb
    simp only [if_true, Option.some.injEq] at hb
    rw [← hb]
    exact ⟨θ₃, θ₄, w.2, e1, by linarith, by linarith, by linarith, h8, hsub e7, hsub e8, in1.1 hi1, out2.1 hi2, .inr ⟨hk2.trans kk, e4, hstep⟩⟩

theorem filterMap_congr' {α β : Type} {l : List α} {f g : α → Option β} (h : ∀ a ∈ l, f a = g a) : l.filterMap f = l.filterMap g := by
  induction l with
  | nil => rfl
  | cons a l ih =>
    rw [List.filterMap_cons, List.filterMap_cons, h a List.mem_cons_self, ih fun b hb => h b (List.mem_cons_of_mem _ hb)]

/-- The flips of a sampled path, by number. -/
theorem flips_kinds (inside : Lla → Bool) (path : List Lla) (n : ℕ) (hn : path.length = n + 1) (st : ℕ → Bool)
    (hst : ∀ (i : ℕ) x, path[i]? = some x → inside x = st i) :
    (flips inside path).map (·.kind) = (List.range n).filterMap (fun i => if st i = st (i + 1) then none else some (if st i then .exit else .enter)) := by
  have hz : path.zip path.tail = (List.range n).map (fun i => (path.getD i ((0, 0), 0), path.getD (i + 1) ((0, 0), 0))) := by
    apply List.ext_getElem
    · simp [hn]
    · intro i h1 h2
      simp only [List.length_map, List.length_range] at h2
      have h3 : i < path.length := by omega
      have h4 : i + 1 < path.length := by omega
      simp [List.getD_eq_getElem?_getD, h3, h4]
  unfold flips
  rw [hz, List.map_filterMap, List.filterMap_map]
  refine filterMap_congr' fun i hi => ?_
  have hi := List.mem_range.1 hi
  have h3 : i < path.length := by omega
  have h4 : i + 1 < path.length := by omega
  have e1 := hst i path[i] (List.getElem?_eq_getElem h3)
  have e2 := hst (i + 1) path[i + 1] (List.getElem?_eq_getElem h4)
  simp only [Function.comp, List.getD_eq_getElem?_getD, List.getElem?_eq_getElem h3, List.getElem?_eq_getElem h4, Option.getD_some, Crossing.flip, e1, e2]
  cases st i <;> cases st (i + 1) <;> rfl

/-- The rough sampling of a leg. -/
theorem rough {k ka r : ℝ} {s f c : Geo} {n : ℕ} (hC : angleOf s f ≤ π - 1 / 10 ^ 6)
    (hp : pointsFor ((globe (toTuple ka c) (r * k)).dist (toTuple ka s) (toTuple ka f)) 9260 = .ok n)
    (hr : (globe (toTuple ka c) (r * k)).raises (toTuple ka s) (toTuple ka f) n = false) :
    3 ≤ n ∧ R * angleOf s f < 9260 * n ∧ 80 ≤ R * angleOf s f ∧
    ∃ t, |t - angleOf s f| ≤ 4 / 10 ^ 8 ∧ 0 < t ∧ ((globe (toTuple ka c) (r * k)).samples (toTuple ka s) (toTuple ka f) n).length = n + 1 ∧
      ∀ (i : ℕ) y, ((globe (toTuple ka c) (r * k)).samples (toTuple ka s) (toTuple ka f) n)[i]? = some y →
        place y.1 = arc (spot s) (dir s f) (t * (i / n)) ∧ y.2 = s.alt * ka + (f.alt * ka - s.alt * ka) * i / n := by
  have hd : (globe (toTuple ka c) (r * k)).dist (toTuple ka s) (toTuple ka f) = R * angleOf s f := by
    show distance 1 _ _ = _
    rw [distance_eq, div_one]; rfl
  rw [hd] at hp
  obtain ⟨h80, h3⟩ := pointsFor_long (by norm_num) hp
  obtain ⟨-, hlt⟩ := pointsFor_spec _ _ (by norm_num) _ hp
  have hpos : 1 / 10 ^ 5 ≤ angleOf s f := by
    rw [show R = 6378137 from rfl] at h80
    norm_num at h80 ⊢
    linarith
  obtain ⟨t, ht, hlen, hs⟩ := samples_on (spot_norm s) (dir_norm s f) (spot_dir s f) (a := toTuple ka s) (b := toTuple ka f) (θa := 0) (θb := angleOf s f)
    (by rw [arc_zero]; rfl) (spot_target s f) (by norm_num at hpos; linarith) (by norm_num at hC ⊢; linarith) (by omega) hr
  rw [sub_zero] at ht
  refine ⟨h3, hlt, h80, t, ht, ?_, hlen, fun i y hy => ?_⟩
  · have := (abs_le.1 ht).1
    norm_num at this hpos
    linarith
  · obtain ⟨h1, h2⟩ := hs i y hy
    rw [zero_add] at h1
    rw [toTuple_alt, toTuple_alt] at h2
    exact ⟨h1, h2⟩

/-- **C72, what is reported.** The kinds are exactly those of the changes between in range and out of range along `n + 1` equally spaced samples of the leg
(less than 9260 m apart, whole length right to `4·10⁻⁸` of the radius), preceded by START_INSIDE and followed by END_INSIDE if the ends are in range;
"Bad" if there is none. -/
theorem c72_kinds {k ka v r : ℝ} {s f c : Geo} {ans : Answer} (hC : angleOf s f ≤ π - 1 / 10 ^ 6) (h : subdivide k ka s f v c r = .ok ans) :
    ∃ (n : ℕ) (t : ℝ) (st : ℕ → Bool), 3 ≤ n ∧ R * angleOf s f < 9260 * n ∧ |t - angleOf s f| ≤ 4 / 10 ^ 8 ∧ 0 < t ∧
      (∀ i ≤ n, st i = true ↔ InRange (r * k) (inSpace ka c) (travel s f (t * (i / n))) (s.alt * ka + (f.alt * ka - s.alt * ka) * i / n)) ∧
      ans.kinds = kindsOf st n := by
  obtain ⟨hv, l, hl, hans⟩ := subdivide_ok h
  obtain ⟨n, first, last, mid, hp, hr, h1, h2, h3, h4⟩ := intersections_two (globe_nonempty _ _) hl
  obtain ⟨n3, hlt, h80, t, ht, ht0, hlen, hs⟩ := rough hC hp hr
  set E := globe (toTuple ka c) (r * k) with hE
  set path := E.samples (toTuple ka s) (toTuple ka f) n with hpath
  have hsin : sin (angleOf s f) ≠ 0 := by
    have h0 : 0 < angleOf s f := by
      have := R_pos
      by_contra hc
      have : R * angleOf s f ≤ 0 := mul_nonpos_of_nonneg_of_nonpos this.le (not_lt.1 hc)
      linarith
    exact (sin_pos_of_pos_of_lt_pi h0 (by norm_num at hC; linarith)).ne'
  have hst : ∀ (i : ℕ) x, path[i]? = some x → E.inside x = (path[i]?.map E.inside).getD false := fun i x hx => by rw [hx]; rfl
  refine ⟨n, t, fun i => (path[i]?.map E.inside).getD false, n3, hlt, ht, ht0, fun i hi => ?_, ?_⟩
  · have hi' : i < path.length := by omega
    have hx := List.getElem?_eq_getElem hi'
    obtain ⟨g1, g2⟩ := hs i _ hx
    simp only [hx, Option.map_some, Option.getD_some]
    rw [travel_arc hsin, ← g1, ← g2, hE, globe_inside, toTuple_alt]
    rfl
  · have hfirst : path[0]? = some first := by rw [← List.head?_eq_getElem?]; exact h1
    have hlast : path[n]? = some last := by rw [← h2, List.getLast?_eq_getElem?, hlen]; rfl
    have hk : l.map (·.kind) = kindsOf (fun i => (path[i]?.map E.inside).getD false) n := by
      rw [h3]
      unfold kindsOf
      simp only [List.map_append]
      rw [forall₂_kinds h4, flips_kinds E.inside path n hlen _ hst]
      simp only [hfirst, hlast, Option.map_some, Option.getD_some]
      cases E.inside first <;> cases E.inside last <;> rfl
    rcases hans with ⟨rfl, rfl⟩ | ⟨-, rfl⟩
    · exact hk
    · rw [← hk]
      show (l.map (hit k ka v s)).map (·.kind) = _
      rw [List.map_map]
      rfl

/-- What one element of the answer promises: the mover is at the location at the time, in range, and the range begins or ends within 46.4 m of travel. -/
structure Right (k ka v r : ℝ) (s f c : Geo) (pt : ℝ) (x : Hit) : Prop where
  begun : 0 ≤ x.time
  there : spot x.loc = travel s f (v * k * x.time / R)
  height : x.loc.alt * ka ∈ Set.uIcc (s.alt * ka) (f.alt * ka)
  inRange : InRange (r * k) (inSpace ka c) (travel s f (v * k * x.time / R)) (x.loc.alt * ka)
  arrives : v * k * (x.time - pt) ≤ 0.8
  start : x.kind = .startInside → x.time = 0 ∧ x.loc.alt * ka = s.alt * ka
  finish : x.kind = .endInside → v * k * |x.time - pt| ≤ 0.8 ∧ x.loc.alt * ka = f.alt * ka
  enter : x.kind = .enter → ∃ T h, 0 ≤ T ∧ T < x.time ∧ v * k * (x.time - T) ≤ 46.4 ∧ h ∈ Set.uIcc (s.alt * ka) (f.alt * ka) ∧
    ¬ InRange (r * k) (inSpace ka c) (travel s f (v * k * T / R)) h
  exit : x.kind = .exit → ∃ T h, x.time < T ∧ v * k * (T - x.time) ≤ 46.4 ∧ v * k * (T - pt) ≤ 0.8 ∧ h ∈ Set.uIcc (s.alt * ka) (f.alt * ka) ∧
    ¬ InRange (r * k) (inSpace ka c) (travel s f (v * k * T / R)) h

/-- **C72, the reports are right.** At the time reported with a location the mover is at that location, and there in range. START_INSIDE is the start
of the leg, END_INSIDE its end (to 0.8 m). Less than 46.4 m of travel before an ENTER and after an EXIT there is a place out of range. The travel time
is that of the great circle. -/
theorem c72_hits {k ka v r : ℝ} {s f c : Geo} {l : List Hit} {pt : ℝ} (hk : 0 < k) (hka : 0 < ka) (hv : 0 < v) (hC : angleOf s f ≤ π - 1 / 10 ^ 6)
    (h : subdivide k ka s f v c r = .ok (.hits l pt)) : l ≠ [] ∧ pt = R * angleOf s f / (k * v) ∧ ∀ x ∈ l, Right k ka v r s f c pt x := by
  have hR : R = 6378137 := rfl
  have hRp := R_pos
  obtain ⟨-, l', hl, hans⟩ := subdivide_ok h
  rcases hans with ⟨-, hans⟩ | ⟨hne, hans⟩
  · cases hans
  have hl1 : l = l'.map (hit k ka v s) := by injection hans
  have hpt : pt = R * angleOf s f / (k * v) := by
    injection hans with _ e
    rw [e, sub_eq, div_div]
    unfold angleOf
    rw [angle_comm]
  subst hl1
  refine ⟨by simpa using hne, hpt, ?_⟩
  obtain ⟨n, first, last, mid, hp, hr, h1, h2, h3, h4⟩ := intersections_two (globe_nonempty _ _) hl
  obtain ⟨n3, hlt, h80, t, ht, ht0, hlen, hs⟩ := rough hC hp hr
  set E := globe (toTuple ka c) (r * k) with hE
  set path := E.samples (toTuple ka s) (toTuple ka f) n with hpath
  have h0 : 1 / 10 ^ 5 ≤ angleOf s f := by
    rw [hR] at h80
    norm_num at h80 ⊢
    linarith
  have hsin : sin (angleOf s f) ≠ 0 := (sin_pos_of_pos_of_lt_pi (by norm_num at h0; linarith) (by norm_num at hC; linarith)).ne'
  have hx := spot_norm s
  have hu := dir_norm s f
  have hxu := spot_dir s f
  have hkv : 0 < v * k := by positivity
  -- the time and the place of an element
  have htime : ∀ (m : Cond Lla) (θ : ℝ), place m.b.1 = arc (spot s) (dir s f) θ → 0 ≤ θ → θ ≤ π →
      (hit k ka v s m).time = R * θ / k / v ∧ spot (hit k ka v s m).loc = arc (spot s) (dir s f) θ ∧ (hit k ka v s m).loc.alt * ka = m.b.2 := by
    intro m θ hm t0 t1
    have e1 : spot (hit k ka v s m).loc = arc (spot s) (dir s f) θ := hm
    refine ⟨?_, e1, ?_⟩
    · show Geo.sub (spherical k) (hit k ka v s m).loc s / v = _
      rw [sub_eq]
      unfold angleOf
      rw [e1, angle_comm]
      have e2 := arc_angle hx hu hxu 0 θ t0 (by linarith)
      rw [arc_zero, sub_zero] at e2
      rw [e2]
    · show m.b.2 / ka * ka = m.b.2
      field_simp
  have hback : ∀ θ, v * k * (R * θ / k / v) / R = θ := fun θ => by field_simp
  have hback' : ∀ θ, v * k * (R * θ / k / v) = R * θ := fun θ => by field_simp
  have hptR : v * k * pt = R * angleOf s f := by rw [hpt]; field_simp
  have harc : ∀ θ, travel s f θ = arc (spot s) (dir s f) θ := travel_arc hsin
  have hin : ∀ (u : E3) (a : ℝ), InRange (r * k) ((R + (toTuple ka c).2) • place (toTuple ka c).1) u a ↔ InRange (r * k) (inSpace ka c) u a := by
    intro u a
    rw [toTuple_alt]; rfl
  have htt := abs_le.1 ht
  intro x hxl
  obtain ⟨m, hm, rfl⟩ := List.mem_map.1 hxl
  rw [h3] at hm
  rcases List.mem_append.1 hm with hm | hm
  · rcases List.mem_append.1 hm with hm | hm
    · -- START_INSIDE
      split at hm
      · rename_i hi
        rw [List.mem_singleton] at hm
        subst hm
        obtain ⟨g1, g2⟩ := hs 0 first (by rw [← List.head?_eq_getElem?]; exact h1)
        simp only [Nat.cast_zero, zero_div, mul_zero, add_zero] at g1 g2
        obtain ⟨e1, e2, e3⟩ := htime ⟨.startInside, first, none⟩ 0 g1 le_rfl pi_pos.le
        have e4 := (globe_inside _ _ _).1 hi
        rw [hin, g1] at e4
        refine ⟨?_, ?_, ?_, ?_, ?_, fun _ => ⟨?_, ?_⟩, fun h => (nomatch h), fun h => (nomatch h), fun h => (nomatch h)⟩
        · rw [e1]; simp
        · rw [e1, e2, hback, harc]
        · rw [e3]; simp only [g2]; exact Set.left_mem_uIcc
        · rw [e1, e3, hback, harc]; exact e4
        · rw [e1, mul_sub, hback', hptR]; nlinarith
        · rw [e1]; simp
        · rw [e3]; exact g2
      · simp at hm
    · -- a crossing
      obtain ⟨cc, hcc, hf⟩ := forall₂_right h4 m hm
      obtain ⟨z, hz, hnb, -⟩ := c45_neighbours _ _ _ hcc
      have hr' : E.raises (toTuple ka s) (toTuple ka f) n = false := hr
      obtain ⟨θy, θz, b1, b2, b3, b4, b5, b6, b7, b8⟩ := nb_on hx hu hxu (θa := 0) (θb := angleOf s f) (a := toTuple ka s) (b := toTuple ka f)
        (by rw [arc_zero]; rfl) (spot_target s f) (by norm_num at h0 ⊢; linarith) (by norm_num at hC ⊢; linarith) (by omega) hr' hnb
      rw [toTuple_alt, toTuple_alt] at b7 b8
      obtain ⟨θ, θ', h', f1, f2, f3, f4, f5, f6, f7, f8, f9, f10⟩ := found_on hx hu hxu hf hz b1 b2 b4 (by norm_num at hC b5 ⊢; linarith) b7 b8
      obtain ⟨e1, e2, e3⟩ := htime m θ f1 (by linarith) (by norm_num at hC b5 f3 ⊢; linarith)
      rw [hin] at f8 f9
      have hkind : (hit k ka v s m).kind = m.kind := rfl
      have hfar : ∀ {ψ}, ψ ≤ θz + 8 / 10 ^ 8 → R * ψ - R * angleOf s f ≤ 0.8 := by
        intro ψ hψ
        have : ψ - angleOf s f ≤ 12 / 10 ^ 8 := by norm_num at b5 hψ ⊢; linarith
        have := mul_le_mul_of_nonneg_left this hRp.le
        rw [hR] at this ⊢
        norm_num at this ⊢
        linarith
      have hdiff : ∀ {a b}, a < b → R * a / k / v < R * b / k / v := by
        intro a b hab
        have : R * a < R * b := mul_lt_mul_of_pos_left hab hRp
        gcongr
      refine ⟨?_, ?_, ?_, ?_, ?_, fun h => ?_, fun h => ?_, fun h => ?_, fun h => ?_⟩
      · rw [e1]; have : 0 ≤ θ := by linarith
        positivity
      · rw [e1, e2, hback, harc]
      · rw [e3]; exact f6
      · rw [e1, e3, hback, harc]; exact f8
      · rw [e1, mul_sub, hback', hptR]; exact hfar f3
      · rw [hkind] at h; rcases f10 with ⟨q, -⟩ | ⟨q, -⟩ <;> rw [q] at h <;> cases h
      · rw [hkind] at h; rcases f10 with ⟨q, -⟩ | ⟨q, -⟩ <;> rw [q] at h <;> cases h
      · rw [hkind] at h
        rcases f10 with ⟨q, q1, q2⟩ | ⟨q, -⟩
        · refine ⟨R * θ' / k / v, h', ?_, ?_, ?_, f7, ?_⟩
          · have : 0 ≤ θ' := by linarith
            positivity
          · rw [e1]; exact hdiff q1
          · rw [e1, mul_sub, hback', hback', ← mul_sub]; exact q2
          · rw [hback, harc]; exact f9
        · rw [q] at h; cases h
      · rw [hkind] at h
        rcases f10 with ⟨q, -⟩ | ⟨q, q1, q2⟩
        · rw [q] at h; cases h
        · refine ⟨R * θ' / k / v, h', ?_, ?_, ?_, f7, ?_⟩
          · rw [e1]; exact hdiff q1
          · rw [e1, mul_sub, hback', hback', ← mul_sub]; exact q2
          · rw [mul_sub, hback', hptR]; exact hfar f5
          · rw [hback, harc]; exact f9
  · -- END_INSIDE
    split at hm
    · rename_i hi
      rw [List.mem_singleton] at hm
      subst hm
      obtain ⟨g1, g2⟩ := hs n last (by rw [← h2, List.getLast?_eq_getElem?, hlen]; rfl)
      have hn : (n : ℝ) ≠ 0 := by have : (3 : ℝ) ≤ n := by exact_mod_cast n3
                                  linarith
      rw [div_self hn, mul_one] at g1
      rw [mul_div_assoc, div_self hn, mul_one, add_sub_cancel] at g2
      obtain ⟨e1, e2, e3⟩ := htime ⟨.endInside, last, none⟩ t g1 ht0.le (by norm_num at hC htt; linarith)
      have e4 := (globe_inside _ _ _).1 hi
      rw [hin, g1] at e4
      have hend : |R * t - R * angleOf s f| ≤ 0.8 := by
        rw [← mul_sub, abs_mul, abs_of_pos hRp]
        have := mul_le_mul_of_nonneg_left ht hRp.le
        rw [hR] at this ⊢
        norm_num at this ⊢
        linarith
      refine ⟨?_, ?_, ?_, ?_, ?_, fun h => (nomatch h), fun _ => ⟨?_, ?_⟩, fun h => (nomatch h), fun h => (nomatch h)⟩
      · rw [e1]; positivity
      · rw [e1, e2, hback, harc]
      · rw [e3]; simp only [g2]; exact Set.right_mem_uIcc
      · rw [e1, e3, hback, harc]; exact e4
      · rw [e1, mul_sub, hback', hptR]; exact (abs_le.1 hend).2
      · have e5 : v * k * |(hit k ka v s ⟨.endInside, last, none⟩).time - pt| = |v * k * ((hit k ka v s ⟨.endInside, last, none⟩).time - pt)| := by
          rw [abs_mul, abs_of_pos hkv]
        rw [e5, e1, mul_sub, hback', hptR]; exact hend
      · rw [e3]; exact g2
    · simp at hm

end Verif.Subdiv
