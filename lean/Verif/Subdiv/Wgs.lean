import Verif.Subdiv.WgsLines
import Verif.Subdiv.Missed

/-! # C82: numerical intersections on the WGS84 ellipsoid -/

namespace Verif.Subdiv.Wgs84

open Verif.Path Verif.Geod Verif.Crossing Real
open Verif.Globe (LL E3 radians place vec)
open Verif.Wgs (a b f a_pos b_pos f_pos lla2ecef)

/-- A place in space: above the place on the ellipsoid (C70), along the perpendicular. -/
noncomputable def above (x : Lla) : E3 := ground x.1 + x.2 • place x.1

/-- Within `r` metres of the sensor at `c`. -/
def InRange (r : ℝ) (c x : Lla) : Prop := dist (above x) (above c) ≤ r

/-- `D` is, to a tenth of a millimetre, the length of a geodesic that leaves `p` and arrives within a millimetre of `q`, at most half way round the earth. -/
def Far (p q : LL) (D : ℝ) : Prop :=
  ∃ u s y, Leads (ground p) u s y ∧ 0 ≤ s ∧ s ≤ π * a ∧ |D - s| ≤ 0.00011 ∧ dist y (ground q) ≤ 0.00082

/-- Latitude and longitude of a location, in degrees. -/
noncomputable def deg (g : Geo) : LL := (g.toDegrees.lat, g.toDegrees.lon)

theorem ellipsoid_inside (c : Lla) (r : ℝ) (x : Lla) : (ellipsoid c r).inside x = true ↔ InRange r c x := by
  unfold ellipsoid InRange above ground
  simp only [decide_eq_true_eq]
  rw [euclid_dist, Verif.Wgs.c70_vertical x.1 x.2, Verif.Wgs.c70_vertical c.1 c.2]

theorem ellipsoid_outside (c : Lla) (r : ℝ) (x : Lla) : (ellipsoid c r).inside x = false ↔ ¬ InRange r c x := by
  rw [← ellipsoid_inside]; simp

theorem ellipsoid_nonempty (c : Lla) (r : ℝ) (x y : Lla) (n : ℕ) : (ellipsoid c r).samples x y n ≠ [] := by
  unfold ellipsoid
  dsimp only
  cases h : ecefAndGeoLinspace x.1 y.1 x.2 y.2 n with
  | error e => simp
  | ok w =>
    obtain ⟨xs, gs⟩ := w
    obtain ⟨-, h2, -⟩ := c71_ecef_and_geo h
    intro h0
    simp only at h0
    rw [h0] at h2
    simp at h2

theorem distance_ok {k tol : ℝ} {n : ℕ} {p q : LL} {d : ℝ} (h : distance k tol n p q = .ok d) : ∃ β, distBearing k tol n p q = .ok (d, β) := by
  unfold distance at h
  cases hb : distBearing k tol n p q with
  | error e => rw [hb] at h; cases h
  | ok r =>
    obtain ⟨d', β⟩ := r
    rw [hb] at h
    simp only [Except.map, Except.ok.injEq] at h
    exact ⟨β, by rw [h]⟩

theorem apart_ok {k : ℝ} {g h : Geo} {d : ℝ} (hd : apart k g h = .ok d) : distance k 1e-12 200 (deg h) (deg g) = .ok d := by
  unfold apart at hd
  rw [c71_symmetric]
  unfold deg
  split at hd
  · rename_i d' he
    cases hd
    exact he
  · cases hd

theorem apart_far {k : ℝ} (hk : 0 < k) {g h : Geo} {d : ℝ} (hg : Lat (deg g)) (hh : Lat (deg h)) (hd : apart k g h = .ok d) : Far (deg h) (deg g) (d * k) := by
  obtain ⟨β, hβ⟩ := distance_ok (apart_ok hd)
  obtain ⟨s, y, h1, h2, h3, h4, h5⟩ := c71_inverse hk (by norm_num) hh hg hβ
  refine ⟨_, s, y, h1, h2, h3, h4, h5.trans ?_⟩
  unfold a
  norm_num

theorem apart_self {k : ℝ} (g : Geo) (h : Geo) (hgh : deg g = deg h) : apart k g h = .ok 0 := by
  have h1 : (g.toDegrees.lat, g.toDegrees.lon) = (h.toDegrees.lat, h.toDegrees.lon) := hgh
  unfold apart
  rw [h1]
  unfold distance distBearing
  rw [if_pos ⟨rfl, rfl⟩]
  rfl

/-- The loop, taken apart. -/
theorem hits_ok {k ka v : ℝ} {s : Geo} {l : List (Cond Lla)} {r : List Hit} (h : hits k ka v s l = .ok r) :
    List.Forall₂ (fun (c : Cond Lla) (x : Hit) => x.kind = c.kind ∧ x.loc = ⟨c.b.1.1, c.b.1.2, c.b.2 / ka, false⟩ ∧ ∃ d, apart k x.loc s = .ok d ∧ x.time = d / v) l r := by
  induction l generalizing r with
  | nil => simp only [hits, Except.ok.injEq] at h; subst h; exact .nil
  | cons c cs ih =>
    simp only [hits] at h
    split at h
    · cases h
    · rename_i d hd
      split at h
      · cases h
      · rename_i l' hl'
        cases h
        exact .cons ⟨rfl, rfl, d, hd, rfl⟩ (ih hl')

theorem forall₂_kind {l : List (Cond Lla)} {r : List Hit} {Q : Cond Lla → Hit → Prop} (h : List.Forall₂ (fun c x => x.kind = c.kind ∧ Q c x) l r) :
    r.map (·.kind) = l.map (·.kind) := by
  induction h with
  | nil => rfl
  | cons h _ ih => simp [h.1, ih]

/-- The answer, taken apart. -/
theorem subdivide_ok {k ka v r : ℝ} {s f c : Geo} {ans : Answer} (h : subdivide k ka s f v c r = .ok ans) :
    v ≠ 0 ∧ ∃ l d, apart k f s = .ok d ∧ intersections (ellipsoid (toTuple ka c) (r * k)) (toTuple ka s) (toTuple ka f) 9260 [10, 20] = .ok l ∧
      ((l = [] ∧ ans = .bad) ∨ (l ≠ [] ∧ ∃ xs, hits k ka v s l = .ok xs ∧ ans = .hits xs (d / v))) := by
  unfold subdivide at h
  split at h
  · cases h
  · rename_i d hd
    split at h
    · cases h
    · rename_i hv
      refine ⟨hv, ?_⟩
      split at h
      · cases h
      · rename_i l hl
        refine ⟨l, d, hd, hl, ?_⟩
        split at h
        · rename_i h0
          cases h
          exact .inl ⟨h0, rfl⟩
        · rename_i h0
          split at h
          · cases h
          · rename_i xs hxs
            cases h
            exact .inr ⟨h0, xs, hxs, rfl⟩

/-- Neighbours of a sampling between two places near a line. -/
theorem nb84 {γ v} (L : Line γ v) {c : Lla} {r : ℝ} {x y p q : Lla} {n : ℕ} {s s' ε : ℝ} (hx : Lat x.1) (hy : Lat y.1) (hr : (ellipsoid c r).raises x y n = false)
    (nx : Near γ v s ε (ground x.1)) (ny : Near γ v s' ε (ground y.1)) (hs : s < s') (hnb : Neighbours ((ellipsoid c r).samples x y n) p q) :
    ∃ D, (ellipsoid c r).dist x y = D ∧ 0 ≤ D ∧ D ≤ 1.7 * dist (ground x.1) (ground y.1) + 0.01 ∧ Lat p.1 ∧ Lat q.1 ∧ dist (ground p.1) (ground q.1) ≤ D / n + 28.02 ∧
      ∃ i : ℕ, i + 1 ≤ n ∧ p.2 = x.2 + (y.2 - x.2) * i / n ∧ q.2 = x.2 + (y.2 - x.2) * (i + 1) / n ∧
        Near γ v (s + (i / n) * (s' - s)) (ε + 14.01 + 0.001 + bendMax * D ^ 2 / 8 + bendMax * (s' - s) ^ 2 / 8) (ground p.1) ∧
        Near γ v (s + ((i + 1) / n) * (s' - s)) (ε + 14.01 + 0.001 + bendMax * D ^ 2 / 8 + bendMax * (s' - s) ^ 2 / 8) (ground q.1) := by
  obtain ⟨hn2, D, hD, D0, -, D2, hlen, γ', v', L', g0, gD, -, -, hi⟩ := samples84 hx hy hr
  obtain ⟨i, ip, iq⟩ := nb_index hnb
  obtain ⟨i1, i2, i3, i4⟩ := hi i p ip
  obtain ⟨j1, j2, j3, j4⟩ := hi (i + 1) q iq
  push_cast at j3 j4
  have hn0 : (0 : ℝ) < n := by exact_mod_cast (by omega : 0 < n)
  have hi1 : (i : ℝ) + 1 ≤ n := by exact_mod_cast j1
  have hi0 : (0 : ℝ) ≤ i := by positivity
  refine ⟨D, hD, D0, D2, i2, j2, ?_, i, j1, i4, j4, ?_, ?_⟩
  · have h := i3.dist L' j3
    have e : |D * i / n - D * (i + 1) / n| = D / n := by
      rw [show D * i / n - D * (i + 1) / n = -(D / n) by ring, abs_neg, abs_of_nonneg (by positivity)]
    rw [e] at h
    linarith
  · exact nx.over L L' ny hs.le D0 g0 gD (by positivity) ((div_le_one hn0).2 (by linarith)) (by rw [← mul_div_assoc]; exact i3)
  · exact nx.over L L' ny hs.le D0 g0 gD (by positivity) ((div_le_one hn0).2 hi1) (by rw [← mul_div_assoc]; exact j3)

theorem bend_le : bendMax ≤ 1.5785e-7 := by
  unfold bendMax Verif.Wgs.equatorial Verif.Wgs.polar
  norm_num

theorem bend_sq {D M : ℝ} (h0 : 0 ≤ D) (h : D ≤ M) : bendMax * D ^ 2 / 8 ≤ 1.5785e-7 * M ^ 2 / 8 := by
  have := bendMax_pos
  have := bend_le
  gcongr

theorem mix_mem {A B x y l : ℝ} (hx : x ∈ Set.uIcc A B) (hy : y ∈ Set.uIcc A B) (h0 : 0 ≤ l) (h1 : l ≤ 1) : x + (y - x) * l ∈ Set.uIcc A B := by
  refine Set.uIcc_subset_uIcc hx hy ?_
  rw [Set.mem_uIcc]
  rcases le_total x y with h | h
  · left; constructor <;> nlinarith
  · right; constructor <;> nlinarith

set_option maxHeartbeats 800000 in
/-- The refined location of one crossing. -/
theorem found84 {γ v} (L : Line γ v) {c : Lla} {r : ℝ} {cc m : Cond Lla} {z : Lla} {s s' A B : ℝ} (hm : Found (ellipsoid c r) cc m) (hz : cc.e = some z)
    (lb : Lat cc.b.1) (lz : Lat z.1) (nb : Near γ v s 14.01 (ground cc.b.1)) (nz : Near γ v s' 14.01 (ground z.1)) (hs : s < s') (hs' : s' - s ≤ 9260)
    (ab : cc.b.2 ∈ Set.uIcc A B) (az : z.2 ∈ Set.uIcc A B) :
    ∃ (y : Lla) (t t' : ℝ), Lat m.b.1 ∧ Lat y.1 ∧ s ≤ t ∧ t ≤ s' ∧ s ≤ t' ∧ t' ≤ s' ∧ Near γ v t 50 (ground m.b.1) ∧ Near γ v t' 50 (ground y.1) ∧
      m.b.2 ∈ Set.uIcc A B ∧ y.2 ∈ Set.uIcc A B ∧ |m.b.2 - y.2| ≤ |z.2 - cc.b.2| / 9 ∧ dist (ground m.b.1) (ground y.1) ≤ 75 ∧
      InRange r c m.b ∧ ¬ InRange r c y ∧ ((m.kind = .enter ∧ t' < t) ∨ (m.kind = .exit ∧ t < t')) := by
  obtain ⟨e, new, he, -, hsp, hk1, hk2, hb⟩ := hm
  rw [hz] at he
  cases he
  obtain ⟨n₁, x₁, y₁, n₂, w, p1, r1, q1, p2, r2, q2, fl⟩ := split_two (ellipsoid_nonempty c r) hsp
  obtain ⟨n13, sp1⟩ := pointsFor_spec _ _ (by norm_num) _ p1
  obtain ⟨n23, sp2⟩ := pointsFor_spec _ _ (by norm_num) _ p2
  obtain ⟨D, hD, D0, D1, lx, ly, dxy, i, hi, ax, ay, nx, ny⟩ := nb84 L lb lz r1 nb nz hs q1
  rw [hD] at sp1
  have m1 : (0 : ℝ) < n₁ := by exact_mod_cast (by omega : 0 < n₁)
  have m1' : (3 : ℝ) ≤ n₁ := by exact_mod_cast n13
  have m2 : (0 : ℝ) < n₂ := by exact_mod_cast (by omega : 0 < n₂)
  have m2' : (3 : ℝ) ≤ n₂ := by exact_mod_cast n23
  have hi' : (i : ℝ) + 1 ≤ n₁ := by exact_mod_cast hi
  have hi0 : (0 : ℝ) ≤ i := by positivity
  set Δ := s' - s with hΔ
  have Δ0 : 0 < Δ := by rw [hΔ]; linarith
  -- the first level
  have c0 := nb.dist L nz
  rw [abs_sub_comm, ← hΔ, abs_of_pos Δ0] at c0
  have hDM : D ≤ 15790 := by norm_num at D1 c0 ⊢; linarith
  have b1 := bend_sq D0 hDM
  have b2 := bend_sq Δ0.le hs'
  have nx' := nx.mono (ε' := 34.7) (by norm_num at b1 b2 ⊢; linarith)
  have ny' := ny.mono (ε' := 34.7) (by norm_num at b1 b2 ⊢; linarith)
  set u := s + i / n₁ * Δ with hu
  set u' := s + (i + 1) / n₁ * Δ with hu'
  have huu : u' - u = Δ / n₁ := by rw [hu, hu']; field_simp; ring
  have huu0 : 0 < u' - u := by rw [huu]; positivity
  have huu1 : u' - u ≤ 3087 := by
    rw [huu, div_le_iff₀ m1]; nlinarith
  have hsu : s ≤ u := by rw [hu]; have : 0 ≤ (i : ℝ) / n₁ * Δ := by positivity
                         linarith
  have hus : u' ≤ s' := by
    have : ((i : ℝ) + 1) / n₁ * Δ ≤ 1 * Δ := mul_le_mul_of_nonneg_right ((div_le_one m1).2 hi') Δ0.le
    rw [hu']; linarith
  have d1 : D / n₁ ≤ 926 := by rw [div_le_iff₀ m1]; linarith
  -- the second level
  obtain ⟨D', hD', D0', D1', lp, lq, dpq, j, hj, ap, aq, np, nq⟩ := nb84 L lx ly r2 nx' ny' (by linarith) q2
  rw [hD'] at sp2
  have hDM' : D' ≤ 1622 := by norm_num at D1' dxy d1 ⊢; linarith
  have b3 := bend_sq D0' hDM'
  have b4 := bend_sq huu0.le huu1
  have np' := np.mono (ε' := 50) (by norm_num at b3 b4 ⊢; linarith)
  have nq' := nq.mono (ε' := 50) (by norm_num at b3 b4 ⊢; linarith)
  have hj' : (j : ℝ) + 1 ≤ n₂ := by exact_mod_cast hj
  have hj0 : (0 : ℝ) ≤ j := by positivity
  have d2 : D' / n₂ ≤ 46.3 := by rw [div_le_iff₀ m2]; linarith
  have dd : dist (ground new.b.1) (ground w.1) ≤ 75 := by norm_num at d2 dpq ⊢; linarith
  have o1 : u ≤ u + j / n₂ * (u' - u) := by have : 0 ≤ (j : ℝ) / n₂ * (u' - u) := by positivity
                                            linarith
  have o2 : u + j / n₂ * (u' - u) < u + (j + 1) / n₂ * (u' - u) := by
    have : (j : ℝ) / n₂ < (j + 1) / n₂ := by gcongr; linarith
    have := mul_lt_mul_of_pos_right this huu0
    linarith
  have o3 : u + (j + 1) / n₂ * (u' - u) ≤ u' := by
    have : ((j : ℝ) + 1) / n₂ * (u' - u) ≤ 1 * (u' - u) := mul_le_mul_of_nonneg_right ((div_le_one m2).2 hj') huu0.le
    linarith
  set t₁ := u + j / n₂ * (u' - u)
  set t₂ := u + (j + 1) / n₂ * (u' - u)
  -- altitudes
  have mx : x₁.2 ∈ Set.uIcc A B := by rw [ax, mul_div_assoc]; exact mix_mem ab az (by positivity) ((div_le_one m1).2 (by linarith))
  have my : y₁.2 ∈ Set.uIcc A B := by rw [ay, mul_div_assoc]; exact mix_mem ab az (by positivity) ((div_le_one m1).2 hi')
  have mp : new.b.2 ∈ Set.uIcc A B := by rw [ap, mul_div_assoc]; exact mix_mem mx my (by positivity) ((div_le_one m2).2 (by linarith))
  have mq : w.2 ∈ Set.uIcc A B := by rw [aq, mul_div_assoc]; exact mix_mem mx my (by positivity) ((div_le_one m2).2 hj')
  have da : |new.b.2 - w.2| ≤ |z.2 - cc.b.2| / 9 := by
    have e1 : new.b.2 - w.2 = -((z.2 - cc.b.2) / (n₁ * n₂)) := by
      rw [ap, aq, ax, ay]; field_simp; ring
    rw [e1, abs_neg, abs_div, abs_of_pos (by positivity : (0 : ℝ) < n₁ * n₂)]
    gcongr
    nlinarith
  have in1 := ellipsoid_inside c r new.b
  have in2 := ellipsoid_inside c r w
  have out1 := ellipsoid_outside c r new.b
  have out2 := ellipsoid_outside c r w
  cases hi1 : (ellipsoid c r).inside new.b <;> cases hi2 : (ellipsoid c r).inside w <;> simp only [Crossing.flip, hi1, hi2, reduceCtorEq, Option.some.injEq] at fl
  · have kk : cc.kind = .enter := by rw [← hk1, ← fl]
    have ew : new.e = some w := by rw [← fl]
    rw [kk, ew] at hb
    simp only [reduceCtorEq, if_false, Option.some.injEq] at hb
    rw [← hb]
    exact ⟨new.b, t₂, t₁, lq, lp, by linarith, by linarith, by linarith, by linarith, nq', np', mq, mp, by rw [abs_sub_comm]; exact da, by rw [dist_comm]; exact dd,
      in2.1 hi2, out1.1 hi1, .inl ⟨hk2.trans kk, o2⟩⟩
  · have kk : cc.kind = .exit := by rw [← hk1, ← fl]
    rw [kk] at hb
    simp only [if_true, Option.some.injEq] at hb
    rw [← hb]
    exact ⟨w, t₁, t₂, lp, lq, by linarith, by linarith, by linarith, by linarith, np', nq', mp, mq, da, dd, in1.1 hi1, out2.1 hi2, .inr ⟨hk2.trans kk, o2⟩⟩

end Verif.Subdiv.Wgs84
