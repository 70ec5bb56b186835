import Verif.Subdiv.Wgs
import Verif.Crossing.Legs

/-! # C82: what the search answers on the ellipsoid -/

namespace Verif.Subdiv.Wgs84

open Verif.Path Verif.Geod Verif.Crossing Real
open Verif.Globe (LL E3 radians place vec)
open Verif.Wgs (a b f a_pos b_pos f_pos lla2ecef)

/-- The line of a leg: a geodesic from `p` that reaches `q`, to a millimetre, after the length `D`. -/
structure Leg (p q : LL) (γ : ℝ → E3) (v : ℝ → ℝ) (D : ℝ) : Prop where
  line : Line γ v
  start : γ 0 = ground p
  finish : Near γ v D 0.001 (ground q)
  length0 : 0 ≤ D
  length1 : D ≤ 20037510

theorem deg_tuple (ka : ℝ) (g : Geo) : (toTuple ka g).1 = deg g := rfl

/-- The rough sampling of a leg. -/
theorem rough84 {k ka r : ℝ} {s f c : Geo} {n : ℕ} (hs : Lat (deg s)) (hf : Lat (deg f))
    (hp : pointsFor ((ellipsoid (toTuple ka c) (r * k)).dist (toTuple ka s) (toTuple ka f)) 9260 = .ok n)
    (hr : (ellipsoid (toTuple ka c) (r * k)).raises (toTuple ka s) (toTuple ka f) n = false) :
    3 ≤ n ∧ ∃ γ v D, (wgs84 1).dist (deg s) (deg f) = D ∧ Leg (deg s) (deg f) γ v D ∧ 80 ≤ D ∧ D < 9260 * n ∧
      ((ellipsoid (toTuple ka c) (r * k)).samples (toTuple ka s) (toTuple ka f) n).length = n + 1 ∧
      ((ellipsoid (toTuple ka c) (r * k)).samples (toTuple ka s) (toTuple ka f) n)[0]? = some (toTuple ka s) ∧
      ((ellipsoid (toTuple ka c) (r * k)).samples (toTuple ka s) (toTuple ka f) n)[n]? = some (toTuple ka f) ∧
      ∀ (i : ℕ) y, ((ellipsoid (toTuple ka c) (r * k)).samples (toTuple ka s) (toTuple ka f) n)[i]? = some y →
        i ≤ n ∧ Lat y.1 ∧ Near γ v (D * i / n) 14.01 (ground y.1) ∧ y.2 = s.alt * ka + (f.alt * ka - s.alt * ka) * i / n := by
  obtain ⟨-, D, hD, D0, D1, -, hlen, γ, v, L, g0, gD, e0, en, hi⟩ := samples84 (x := toTuple ka s) (y := toTuple ka f) hs hf hr
  rw [hD] at hp
  obtain ⟨h80, h3⟩ := pointsFor_long (by norm_num) hp
  obtain ⟨-, hlt⟩ := pointsFor_spec _ _ (by norm_num) _ hp
  rw [toTuple_alt, toTuple_alt] at hi
  exact ⟨h3, γ, v, D, hD, ⟨L, g0, gD, D0, D1⟩, h80, hlt, hlen, e0, en, hi⟩

/-- **C82, what is reported.** The kinds are exactly those of the changes between in range and out of range along `n + 1` places less than 9260 m apart,
the first the start, the last the end, each within 14.01 m of its place on the line of the leg, at altitudes evenly divided; preceded by START_INSIDE
and followed by END_INSIDE if the ends are in range; "Bad" if there is none. -/
theorem c82_kinds {k ka v r : ℝ} {s f c : Geo} {ans : Answer} (hs : Lat (deg s)) (hf : Lat (deg f)) (h : subdivide k ka s f v c r = .ok ans) :
    ∃ γ w D, Leg (deg s) (deg f) γ w D ∧ ∃ (n : ℕ) (pos : ℕ → Lla) (st : ℕ → Bool), 3 ≤ n ∧ D < 9260 * n ∧ pos 0 = toTuple ka s ∧ pos n = toTuple ka f ∧
      (∀ i ≤ n, Lat (pos i).1 ∧ Near γ w (D * i / n) 14.01 (ground (pos i).1) ∧ (pos i).2 = s.alt * ka + (f.alt * ka - s.alt * ka) * i / n) ∧
      (∀ i ≤ n, st i = true ↔ InRange (r * k) (toTuple ka c) (pos i)) ∧ ans.kinds = kindsOf st n := by
  obtain ⟨hv, l, d, hd, hl, hans⟩ := subdivide_ok h
  obtain ⟨n, first, last, mid, hp, hr, h1, h2, h3, h4⟩ := intersections_two (ellipsoid_nonempty _ _) hl
  obtain ⟨n3, γ, w, D, -, hleg, h80, hlt, hlen, e0, en, hi⟩ := rough84 hs hf hp hr
  set E := ellipsoid (toTuple ka c) (r * k) with hE
  set path := E.samples (toTuple ka s) (toTuple ka f) n with hpath
  have hst : ∀ (i : ℕ) x, path[i]? = some x → E.inside x = (path[i]?.map E.inside).getD false := fun i x hx => by rw [hx]; rfl
  refine ⟨γ, w, D, hleg, n, fun i => path[i]?.getD (toTuple ka s), fun i => (path[i]?.map E.inside).getD false, n3, hlt, ?_, ?_, fun i hi' => ?_, fun i hi' => ?_, ?_⟩
  · simp only [e0, Option.getD_some]
  · simp only [en, Option.getD_some]
  · have hil : i < path.length := by omega
    have hx := List.getElem?_eq_getElem hil
    simp only [hx, Option.getD_some]
    exact (hi i _ hx).2
  · have hil : i < path.length := by omega
    have hx := List.getElem?_eq_getElem hil
    simp only [hx, Option.map_some, Option.getD_some]
    rw [hE, ellipsoid_inside]
  · have hfirst : path[0]? = some first := by rw [← List.head?_eq_getElem?]; exact h1
    have hlast : path[n]? = some last := by rw [← h2, List.getLast?_eq_getElem?, hlen]; rfl
    have hk : l.map (·.kind) = kindsOf (fun i => (path[i]?.map E.inside).getD false) n := by
      rw [h3]
      unfold kindsOf
      simp only [List.map_append]
      rw [forall₂_kinds h4, flips_kinds E.inside path n hlen _ hst]
      simp only [hfirst, hlast, Option.map_some, Option.getD_some]
      cases E.inside first <;> cases E.inside last <;> rfl
    rcases hans with ⟨rfl, rfl⟩ | ⟨-, xs, hxs, rfl⟩
    · exact hk
    · rw [← hk]
      exact forall₂_kind (hits_ok hxs)

/-- What one element of the answer promises. -/
structure Right (k ka v r : ℝ) (s f c : Geo) (γ : ℝ → E3) (w : ℝ → ℝ) (D pt : ℝ) (x : Hit) : Prop where
  lat : Lat (deg x.loc)
  begun : 0 ≤ x.time
  far : Far (deg s) (deg x.loc) (x.time * (v * k))
  inRange : InRange (r * k) (toTuple ka c) (toTuple ka x.loc)
  height : x.loc.alt * ka ∈ Set.uIcc (s.alt * ka) (f.alt * ka)
  near : ∃ t, 0 ≤ t ∧ t ≤ D ∧ Near γ w t 50 (ground (deg x.loc))
  start : x.kind = .startInside → x.time = 0 ∧ toTuple ka x.loc = toTuple ka s
  finish : x.kind = .endInside → x.time = pt ∧ toTuple ka x.loc = toTuple ka f
  enter : x.kind = .enter → ∃ y t t', 0 ≤ t' ∧ t' < t ∧ t ≤ D ∧ Near γ w t 50 (ground (deg x.loc)) ∧ Near γ w t' 50 (ground y.1) ∧ Lat y.1 ∧
    ¬ InRange (r * k) (toTuple ka c) y ∧ dist (ground (deg x.loc)) (ground y.1) ≤ 75 ∧ |x.loc.alt * ka - y.2| ≤ |f.alt * ka - s.alt * ka| / 27
  exit : x.kind = .exit → ∃ y t t', 0 ≤ t ∧ t < t' ∧ t' ≤ D ∧ Near γ w t 50 (ground (deg x.loc)) ∧ Near γ w t' 50 (ground y.1) ∧ Lat y.1 ∧
    ¬ InRange (r * k) (toTuple ka c) y ∧ dist (ground (deg x.loc)) (ground y.1) ≤ 75 ∧ |x.loc.alt * ka - y.2| ≤ |f.alt * ka - s.alt * ka| / 27

theorem tuple_back {ka : ℝ} (hka : ka ≠ 0) (x : Lla) : toTuple ka ⟨x.1.1, x.1.2, x.2 / ka, false⟩ = x := by
  unfold toTuple Geo.toDegrees
  simp [hka]

/-- **C82, the reports are right.** Every location reported is in range and within 50 m of the line of the leg, between its ends, at an altitude of the leg;
the time reported with it is that of a geodesic from the start to it. START_INSIDE is the start at time 0, END_INSIDE the end at the travel time. Within
75 m of an ENTER, before it on the leg, and of an EXIT, after it on the leg, there is a place out of range. Missing: that a mover on the leg is at the
location at the time reported (`c82_times_partial` and `c82_equator` show it for legs of up to 1000 km and along the equator). -/
theorem c82_hits_partial {k ka v r : ℝ} {s f c : Geo} {l : List Hit} {pt : ℝ} (hk : 0 < k) (hka : ka ≠ 0) (hv : 0 < v) (hs : Lat (deg s)) (hf : Lat (deg f))
    (h : subdivide k ka s f v c r = .ok (.hits l pt)) :
    l ≠ [] ∧ ∃ γ w D, Leg (deg s) (deg f) γ w D ∧ pt * (v * k) = D ∧ ∀ x ∈ l, Right k ka v r s f c γ w D pt x := by
  obtain ⟨-, l', d, hd, hl, hans⟩ := subdivide_ok h
  rcases hans with ⟨-, hans⟩ | ⟨hne, xs, hxs, hans⟩
  · cases hans
  obtain ⟨rfl, rfl⟩ : l = xs ∧ pt = d / v := by injection hans with e1 e2; exact ⟨e1, e2⟩
  obtain ⟨n, first, last, mid, hp, hr, h1, h2, h3, h4⟩ := intersections_two (ellipsoid_nonempty _ _) hl
  obtain ⟨n3, γ, w, D, hD, hleg, h80, hlt, hlen, e0, en, hi⟩ := rough84 hs hf hp hr
  have hall := hits_ok hxs
  have hn0 : (0 : ℝ) < n := by exact_mod_cast (by omega : 0 < n)
  have hn3 : (3 : ℝ) ≤ n := by exact_mod_cast n3
  refine ⟨?_, γ, w, D, hleg, ?_, ?_⟩
  · rintro rfl
    cases hall
    exact hne rfl
  · obtain ⟨β, hβ⟩ := distance_ok (apart_ok hd)
    have h5 := distBearing_scale hk.ne' one_ne_zero hβ
    have h6 := (wgs84_dist h5).1
    rw [hD] at h6
    rw [h6]
    field_simp
  · intro x hx
    obtain ⟨m, hm, hkind, hloc, d', hd', htime⟩ := forall₂_right hall x hx
    have hdeg : deg x.loc = m.b.1 := by rw [hloc]; rfl
    have htup : toTuple ka x.loc = m.b := by rw [hloc]; exact tuple_back hka m.b
    have halt : x.loc.alt * ka = m.b.2 := by rw [← toTuple_alt, htup]
    have hbegun : 0 ≤ x.time := by
      obtain ⟨β, hβ⟩ := distance_ok (apart_ok hd')
      rw [htime]
      exact div_nonneg (distBearing_nonneg hk hβ) hv.le
    have hfar : Lat m.b.1 → Far (deg s) (deg x.loc) (x.time * (v * k)) := fun hl => by
      have := apart_far hk (by rw [hdeg]; exact hl) hs hd'
      rw [htime, show d' / v * (v * k) = d' * k by field_simp]
      exact this
    rw [h3] at hm
    rcases List.mem_append.1 hm with hm | hm
    · rcases List.mem_append.1 hm with hm | hm
      · -- START_INSIDE
        split at hm
        · rename_i hin
          rw [List.mem_singleton] at hm
          subst hm
          have hfirst : first = toTuple ka s := by
            have := List.head?_eq_getElem? (l := (ellipsoid (toTuple ka c) (r * k)).samples (toTuple ka s) (toTuple ka f) n)
            rw [h1, e0] at this
            exact Option.some.inj this
          subst hfirst
          dsimp only at hdeg htup halt hfar hkind
          rw [ellipsoid_inside] at hin
          refine ⟨by rw [hdeg]; exact hs, hbegun, hfar hs, by rw [htup]; exact hin, ?_, ⟨0, le_rfl, hleg.length0, ?_⟩, fun _ => ⟨?_, htup⟩, fun h => ?_, fun h => ?_, fun h => ?_⟩
          · rw [halt, toTuple_alt]; exact Set.left_mem_uIcc
          · rw [hdeg, deg_tuple, ← hleg.start]; exact hleg.line.start.mono (by norm_num)
          · have := apart_self (k := k) x.loc s hdeg
            rw [hd'] at this
            cases this
            rw [htime, zero_div]
          all_goals rw [hkind] at h; cases h
        · simp at hm
      · -- a crossing
        obtain ⟨cc, hcc, hfound⟩ := forall₂_right h4 m hm
        obtain ⟨z, hz, hnb, -⟩ := c45_neighbours _ _ _ hcc
        obtain ⟨i, ib, iz⟩ := nb_index hnb
        obtain ⟨i1, i2, i3, i4⟩ := hi i _ ib
        obtain ⟨j1, j2, j3, j4⟩ := hi (i + 1) _ iz
        push_cast at j3 j4
        have hi1 : (i : ℝ) + 1 ≤ n := by exact_mod_cast j1
        have hi0 : (0 : ℝ) ≤ i := by positivity
        have hstep : D * (i + 1) / n - D * i / n = D / n := by ring
        have hDn : 0 < D / n := div_pos (by linarith) hn0
        have hDn' : D / n ≤ 9260 := by rw [div_le_iff₀ hn0]; linarith
        have hmem : ∀ q : ℝ, 0 ≤ q → q ≤ n → s.alt * ka + (f.alt * ka - s.alt * ka) * q / n ∈ Set.uIcc (s.alt * ka) (f.alt * ka) := fun q q0 q1 => by
          rw [mul_div_assoc]
          exact mix_mem Set.left_mem_uIcc Set.right_mem_uIcc (by positivity) ((div_le_one hn0).2 q1)
        obtain ⟨y, t, t', f1, f2, f3, f4, f5, f6, f7, f8, f9, -, f11, f12, f13, f14, f15⟩ := found84 hleg.line hfound hz i2 j2 i3 j3 (by linarith) (by linarith)
          (A := s.alt * ka) (B := f.alt * ka) (by rw [i4]; exact hmem _ hi0 (by linarith)) (by rw [j4]; exact hmem _ (by linarith) hi1)
        have hlo : 0 ≤ D * i / n := by have := hleg.length0; positivity
        have hhi : D * (i + 1) / n ≤ D := by
          rw [mul_div_assoc]
          exact mul_le_of_le_one_right hleg.length0 ((div_le_one hn0).2 hi1)
        have hda : |x.loc.alt * ka - y.2| ≤ |f.alt * ka - s.alt * ka| / 27 := by
          rw [halt]
          refine f11.trans ?_
          have e1 : z.2 - cc.b.2 = (f.alt * ka - s.alt * ka) / n := by rw [i4, j4]; field_simp; ring
          rw [e1, abs_div, abs_of_pos hn0]
          have : |f.alt * ka - s.alt * ka| / n ≤ |f.alt * ka - s.alt * ka| / 3 := by gcongr
          linarith
        refine ⟨by rw [hdeg]; exact f1, hbegun, hfar f1, by rw [htup]; exact f13, by rw [halt]; exact f9, ⟨t, by linarith, by linarith, by rw [hdeg]; exact f7⟩,
          fun h => ?_, fun h => ?_, fun h => ?_, fun h => ?_⟩
        · rw [hkind] at h; rcases f15 with ⟨q, -⟩ | ⟨q, -⟩ <;> rw [q] at h <;> cases h
        · rw [hkind] at h; rcases f15 with ⟨q, -⟩ | ⟨q, -⟩ <;> rw [q] at h <;> cases h
        · rcases f15 with ⟨-, q⟩ | ⟨q, -⟩
          · exact ⟨y, t, t', by linarith, q, by linarith, by rw [hdeg]; exact f7, f8, f2, f14, by rw [hdeg]; exact f12, hda⟩
          · rw [hkind, q] at h; cases h
        · rcases f15 with ⟨q, -⟩ | ⟨-, q⟩
          · rw [hkind, q] at h; cases h
          · exact ⟨y, t, t', by linarith, q, by linarith, by rw [hdeg]; exact f7, f8, f2, f14, by rw [hdeg]; exact f12, hda⟩
    · -- END_INSIDE
      split at hm
      · rename_i hin
        rw [List.mem_singleton] at hm
        subst hm
        have hlast : last = toTuple ka f := by
          have := List.getLast?_eq_getElem? (l := (ellipsoid (toTuple ka c) (r * k)).samples (toTuple ka s) (toTuple ka f) n)
          rw [h2, hlen] at this
          simp only [Nat.add_sub_cancel] at this
          rw [en] at this
          exact Option.some.inj this
        subst hlast
        dsimp only at hdeg htup halt hfar hkind
        rw [ellipsoid_inside] at hin
        refine ⟨by rw [hdeg]; exact hf, hbegun, hfar hf, by rw [htup]; exact hin, ?_, ⟨D, hleg.length0, le_rfl, ?_⟩, fun h => ?_, fun _ => ⟨?_, htup⟩, fun h => ?_, fun h => ?_⟩
        · rw [halt, toTuple_alt]; exact Set.right_mem_uIcc
        · rw [hdeg, deg_tuple]; exact hleg.finish.mono (by norm_num)
        · rw [hkind] at h; cases h
        · have e1 := apart_ok hd'
          have e2 := apart_ok hd
          rw [hdeg, deg_tuple] at e1
          rw [e1] at e2
          cases e2
          exact htime
        all_goals rw [hkind] at h; cases h
      · simp at hm

/-- **C82, long stays are noticed.** If all places within 14.01 m of some 9260 m of the leg, at altitudes of the leg, are in range, the answer is not "Bad". -/
theorem c82_noticed {k ka v r : ℝ} {s f c : Geo} {ans : Answer} (hs : Lat (deg s)) (hf : Lat (deg f)) (h : subdivide k ka s f v c r = .ok ans) :
    ∃ γ w D, Leg (deg s) (deg f) γ w D ∧ ∀ t₀, 0 ≤ t₀ → t₀ + 9260 ≤ D →
      (∀ (x : Lla) (t : ℝ), t₀ ≤ t → t ≤ t₀ + 9260 → Lat x.1 → Near γ w t 14.01 (ground x.1) → x.2 ∈ Set.uIcc (s.alt * ka) (f.alt * ka) → InRange (r * k) (toTuple ka c) x) →
      ans.kinds ≠ [] ∧ ans ≠ .bad := by
  obtain ⟨γ, w, D, hleg, n, pos, st, n3, hlt, -, -, hpos, hst, hk⟩ := c82_kinds hs hf h
  refine ⟨γ, w, D, hleg, fun t₀ h0 h1 hin => ?_⟩
  have hn0 : (0 : ℝ) < n := by exact_mod_cast (by omega : 0 < n)
  have hD : 0 < D := by linarith
  have key : ans.kinds ≠ [] := by
    intro hnil
    rw [hk] at hnil
    have hall := kindsOf_nil hnil
    have hstep : D / n < 9260 := by rw [div_lt_iff₀ hn0]; exact hlt
    have hDn : 0 < D / n := by positivity
    set i := ⌈t₀ * n / D⌉₊ with hi
    have h2 : t₀ * n / D ≤ i := Nat.le_ceil _
    have h3 : (i : ℝ) < t₀ * n / D + 1 := Nat.ceil_lt_add_one (by positivity)
    have h4 : t₀ ≤ D * i / n := by
      rw [div_le_iff₀ hD] at h2
      rw [le_div_iff₀ hn0]
      linarith
    have h5 : D * i / n ≤ t₀ + 9260 := by
      have h6 : D * i / n < D * (t₀ * n / D + 1) / n := by gcongr
      have e : D * (t₀ * n / D + 1) / n = t₀ + D / n := by field_simp
      rw [e] at h6
      linarith
    have hin' : i ≤ n := by
      have h6 : D * i / n ≤ D := h5.trans h1
      rw [div_le_iff₀ hn0] at h6
      exact_mod_cast (mul_le_mul_iff_of_pos_left hD).1 h6
    obtain ⟨p1, p2, p3⟩ := hpos i hin'
    have h7 := (hst i hin').2 (hin (pos i) _ h4 h5 p1 p2 (by
      rw [p3, mul_div_assoc]
      exact mix_mem Set.left_mem_uIcc Set.right_mem_uIcc (by positivity) ((div_le_one hn0).2 (by exact_mod_cast hin'))))
    rw [hall i hin'] at h7
    cases h7
  exact ⟨key, fun hb => key (by rw [hb]; rfl)⟩

/-- **C82, opposite ends.** Along the equator between ends 179.4 to 180 degrees apart the search raises. -/
theorem c82_antipodal (k ka v r : ℝ) (s f c : Geo) (hs : (deg s).1 = 0) (hf : (deg f).1 = 0) (h0 : 179.4 ≤ (deg f).2 - (deg s).2) (h1 : (deg f).2 - (deg s).2 < 180) :
    ∃ e, subdivide k ka s f v c r = .error e := by
  obtain ⟨e, he⟩ := c71_antipodal (tol := 1e-12) (deg s) (deg f) (by norm_num) (by norm_num) hs hf h0 h1 k 200
  have h2 : distance k 1e-12 200 (deg s) (deg f) = .error e := by unfold distance; rw [he]; rfl
  rw [c71_symmetric] at h2
  have h3 : apart k f s = .error .python := by
    unfold apart
    unfold deg at h2
    rw [h2]
  refine ⟨.python, ?_⟩
  unfold subdivide
  rw [h3]

/-- **C82, short legs.** Below 289.375 m the search raises. -/
theorem c82_short (k ka v r : ℝ) (s f c : Geo) (hk : 0 < k) (hv : v ≠ 0) {d : ℝ} (hd : distance k 1e-12 200 (deg s) (deg f) = .ok d) (h : d * k < 289.375) :
    subdivide k ka s f v c r = .error .tooSmall := by
  obtain ⟨β, hβ⟩ := distance_ok hd
  have h5 := distBearing_scale hk.ne' one_ne_zero hβ
  have h6 := (wgs84_dist h5).1
  have h7 : intersections (ellipsoid (toTuple ka c) (r * k)) (toTuple ka s) (toTuple ka f) 9260 [10, 20] = .error .tooSmall := by
    apply c56_short_legs_fail
    show (wgs84 1).dist (deg s) (deg f) < _
    rw [h6, div_one]
    exact h
  have h8 : apart k f s = .ok d := by
    rw [c71_symmetric] at hd
    unfold apart
    unfold deg at hd
    rw [hd]
  unfold subdivide
  rw [h8]
  dsimp only
  rw [if_neg hv, h7]

/-- The search on a leg of which all places have the same status. -/
theorem same_status {k ka r : ℝ} {s f c : Geo} (hk : 0 < k) (hs : Lat (deg s)) (hf : Lat (deg f)) {d : ℝ} (hd : distance k 1e-12 200 (deg s) (deg f) = .ok d)
    (hlong : 289.375 ≤ d * k) (q : Bool)
    (hq : ∀ γ w D, Leg (deg s) (deg f) γ w D → ∀ (x : Lla) (t : ℝ), 0 ≤ t → t ≤ D → Lat x.1 → Near γ w t 14.01 (ground x.1) → x.2 ∈ Set.uIcc (s.alt * ka) (f.alt * ka) →
      (ellipsoid (toTuple ka c) (r * k)).inside x = q) :
    apart k f s = .ok d ∧ intersections (ellipsoid (toTuple ka c) (r * k)) (toTuple ka s) (toTuple ka f) 9260 [10, 20] =
      .ok (if q then [⟨.startInside, toTuple ka s, none⟩, ⟨.endInside, toTuple ka f, none⟩] else []) := by
  obtain ⟨β, hβ⟩ := distance_ok hd
  have h1 := (wgs84_dist (distBearing_scale hk.ne' one_ne_zero hβ)).1
  have h2 := distBearing_scale hk.ne' (by norm_num : (1000 : ℝ) ≠ 0) hβ
  have h3 : apart k f s = .ok d := by
    rw [c71_symmetric] at hd
    unfold apart
    unfold deg at hd
    rw [hd]
  refine ⟨h3, ?_⟩
  have hdist : (ellipsoid (toTuple ka c) (r * k)).dist (toTuple ka s) (toTuple ka f) = d * k := by
    show (wgs84 1).dist (deg s) (deg f) = _
    rw [h1, div_one]
  obtain ⟨n, hn⟩ := (c56_sampled_iff (d * k) (9260 : ℝ) (by norm_num)).2 ⟨6, .inr (by norm_num), by norm_num at hlong ⊢; linarith⟩
  rw [← hdist] at hn
  have hr : (ellipsoid (toTuple ka c) (r * k)).raises (toTuple ka s) (toTuple ka f) n = false := by
    have h4 := (pointsFor_spec _ _ (by norm_num) _ hn).1
    obtain ⟨l, hl⟩ := c71_linspace_ok hs (n := n) (by omega) h2
    unfold ellipsoid ecefAndGeoLinspace
    dsimp only [deg_tuple]
    rw [hl]
  obtain ⟨n3, γ, w, D, -, hleg, -, -, hlen, e0, en, hi⟩ := rough84 hs hf hn hr
  obtain ⟨first, last, k1, k2, k3⟩ := c45_crossing_list _ (ellipsoid_nonempty _ _) (toTuple ka s) (toTuple ka f) 9260 (by norm_num) n hn hr
  have hfirst : first = toTuple ka s := by
    rw [List.head?_eq_getElem?, e0] at k1
    exact (Option.some.inj k1).symm
  have hlast : last = toTuple ka f := by
    rw [List.getLast?_eq_getElem?, hlen] at k2
    simp only [Nat.add_sub_cancel] at k2
    rw [en] at k2
    exact (Option.some.inj k2).symm
  have hn0 : (0 : ℝ) < n := by exact_mod_cast (by omega : 0 < n)
  have hst : ∀ (i : ℕ) x, ((ellipsoid (toTuple ka c) (r * k)).samples (toTuple ka s) (toTuple ka f) n)[i]? = some x → (ellipsoid (toTuple ka c) (r * k)).inside x = q := fun i x hx => by
    obtain ⟨i1, i2, i3, i4⟩ := hi i x hx
    have hi1 : (i : ℝ) ≤ n := by exact_mod_cast i1
    refine hq γ w D hleg x (D * i / n) (by have := hleg.length0; positivity) ?_ i2 i3 ?_
    · rw [mul_div_assoc]
      exact mul_le_of_le_one_right hleg.length0 ((div_le_one hn0).2 hi1)
    · rw [i4, mul_div_assoc]
      exact mix_mem Set.left_mem_uIcc Set.right_mem_uIcc (by positivity) ((div_le_one hn0).2 hi1)
  have hflips : flips (ellipsoid (toTuple ka c) (r * k)).inside ((ellipsoid (toTuple ka c) (r * k)).samples (toTuple ka s) (toTuple ka f) n) = [] := by
    have h5 := flips_kinds (ellipsoid (toTuple ka c) (r * k)).inside _ n hlen (fun _ => q) hst
    simp only [if_true] at h5
    have h6 : (List.range n).filterMap (fun _ => (none : Option Kind)) = [] := by simp
    rw [h6] at h5
    exact List.map_eq_nil_iff.1 h5
  have a1 := hst 0 _ e0
  have a2 := hst n _ en
  unfold intersections
  rw [k3, hfirst, hlast]
  unfold expected
  rw [hflips, a1, a2]
  cases q <;> simp [refine]

/-- **C82, a leg within range.** If all places within 14.01 m of the leg, at altitudes of the leg, are in range, exactly START_INSIDE at the start at time 0
and END_INSIDE at the end at the travel time are reported. -/
theorem c82_throughout {k ka v r : ℝ} {s f c : Geo} (hk : 0 < k) (hka : ka ≠ 0) (hv : v ≠ 0) (hs : Lat (deg s)) (hf : Lat (deg f)) {d : ℝ}
    (hd : distance k 1e-12 200 (deg s) (deg f) = .ok d) (hlong : 289.375 ≤ d * k)
    (hin : ∀ γ w D, Leg (deg s) (deg f) γ w D → ∀ (x : Lla) (t : ℝ), 0 ≤ t → t ≤ D → Lat x.1 → Near γ w t 14.01 (ground x.1) → x.2 ∈ Set.uIcc (s.alt * ka) (f.alt * ka) →
      InRange (r * k) (toTuple ka c) x) :
    subdivide k ka s f v c r = .ok (.hits [⟨.startInside, s.toDegrees, 0⟩, ⟨.endInside, f.toDegrees, d / v⟩] (d / v)) := by
  obtain ⟨h1, h2⟩ := same_status (r := r) (c := c) hk hs hf hd hlong true fun γ w D hl x t t0 t1 lx nx ax => (ellipsoid_inside _ _ _).2 (hin γ w D hl x t t0 t1 lx nx ax)
  have hback : ∀ g : Geo, (⟨(toTuple ka g).1.1, (toTuple ka g).1.2, (toTuple ka g).2 / ka, false⟩ : Geo) = g.toDegrees := fun g => by
    obtain ⟨la, lo, al, rd⟩ := g
    cases rd <;> simp [toTuple, Geo.toDegrees, hka]
  have h3 : apart k s.toDegrees s = .ok 0 := apart_self _ _ (by unfold deg Geo.toDegrees; split <;> simp_all)
  have h4 : apart k f.toDegrees s = .ok d := by
    rw [← h1]
    have e : deg f.toDegrees = deg f := by unfold deg Geo.toDegrees; split <;> simp_all
    unfold apart
    unfold deg at e
    rw [e]
  unfold subdivide
  rw [h1, h2]
  simp only [if_true, if_neg hv, reduceCtorEq, if_false, hits, hback, h3, h4, zero_div]

/-- **C82, a leg out of range.** If no place within 14.01 m of the leg, at altitudes of the leg, is in range, the answer is "Bad". -/
theorem c82_nowhere {k ka v r : ℝ} {s f c : Geo} (hk : 0 < k) (hv : v ≠ 0) (hs : Lat (deg s)) (hf : Lat (deg f)) {d : ℝ}
    (hd : distance k 1e-12 200 (deg s) (deg f) = .ok d) (hlong : 289.375 ≤ d * k)
    (hout : ∀ γ w D, Leg (deg s) (deg f) γ w D → ∀ (x : Lla) (t : ℝ), 0 ≤ t → t ≤ D → Lat x.1 → Near γ w t 14.01 (ground x.1) → x.2 ∈ Set.uIcc (s.alt * ka) (f.alt * ka) →
      ¬ InRange (r * k) (toTuple ka c) x) :
    subdivide k ka s f v c r = .ok .bad := by
  obtain ⟨h1, h2⟩ := same_status (r := r) (c := c) hk hs hf hd hlong false fun γ w D hl x t t0 t1 lx nx ax => (ellipsoid_outside _ _ _).2 (hout γ w D hl x t t0 t1 lx nx ax)
  unfold subdivide
  rw [h1, h2]
  simp [if_neg hv]

/-! ### examples: from (0, 0) to 45 degrees north and 90 degrees east, climbing to 100 m -/

noncomputable def port : Geo := ⟨0, 0, 0, false⟩

theorem port_deg : deg port = (0, 0) := by simp [deg, port, Geo.toDegrees]
theorem island_deg : deg island = (45, 90) := by simp [deg, island, Geo.toDegrees]
theorem port_lat : Lat (deg port) := by rw [port_deg]; exact ⟨by norm_num, by norm_num⟩
theorem island_lat : Lat (deg island) := by rw [island_deg]; exact ⟨by norm_num, by norm_num⟩

theorem port_island : ∃ d, distance 1 1e-12 200 (deg port) (deg island) = .ok d ∧ 6000000 ≤ d := by
  obtain ⟨d, β, h⟩ := far_found 1
  have h1 := far_dist (k := 1) one_pos
  rw [(wgs84_dist h).1] at h1
  refine ⟨d, ?_, by linarith⟩
  rw [port_deg, island_deg]
  unfold distance
  rw [h]
  rfl

theorem ground_le (p : LL) : ‖ground p‖ ≤ 6378137 := by
  have h : ground p ∈ Verif.Wgs.Ellipsoid := Verif.Wgs.c70_surface p
  have h1 := form_ge (ground p)
  have h2 : form (ground p) (ground p) = 1 := by
    unfold Verif.Wgs.Ellipsoid at h
    simp only [Set.mem_setOf_eq] at h
    unfold form
    rw [← h]
    ring
  have he := equatorial_pos
  rw [h2, div_le_one (by positivity)] at h1
  exact (le_abs_self _).trans (abs_le_of_sq_le_sq h1 he.le)

theorem above_le (x : Lla) : ‖above x‖ ≤ 6378137 + |x.2| := by
  unfold above
  refine (norm_add_le _ _).trans ?_
  rw [norm_smul, Verif.Globe.place_norm, mul_one]
  have := ground_le x.1
  rw [Real.norm_eq_abs]
  linarith

theorem climb {x : ℝ} (h : x ∈ Set.uIcc (port.alt * 1) (island.alt * 1)) : |x| ≤ 100 := by
  have e1 : port.alt = 0 := rfl
  have e2 : island.alt = 100 := rfl
  rw [e1, e2, Set.mem_uIcc] at h
  rw [abs_le]
  rcases h with ⟨h1, h2⟩ | ⟨h1, h2⟩ <;> constructor <;> linarith

theorem moon {x : Lla} (hx : x.2 ∈ Set.uIcc (port.alt * 1) (island.alt * 1)) : InRange (3e8 * 1) (toTuple 1 port) x := by
  have h1 := above_le x
  have h2 := above_le (toTuple 1 port)
  have h3 := climb hx
  have h4 : (toTuple 1 port).2 = 0 := by rw [toTuple_alt]; simp [port]
  rw [h4, abs_zero] at h2
  unfold InRange
  rw [dist_eq_norm]
  have := norm_sub_le (above x) (above (toTuple 1 port))
  norm_num
  linarith

/-- A sensor that sees as far as the moon. -/
theorem seen : ∃ d, 6000000 ≤ d ∧ subdivide 1 1 port island 1 port 3e8 = .ok (.hits [⟨.startInside, port.toDegrees, 0⟩, ⟨.endInside, island.toDegrees, d / 1⟩] (d / 1)) := by
  obtain ⟨d, hd, h6⟩ := port_island
  refine ⟨d, h6, c82_throughout one_pos one_ne_zero one_ne_zero port_lat island_lat hd (by norm_num; linarith) fun γ w D _ x t _ _ _ _ hx => moon hx⟩

example : ∃ d, 6000000 ≤ d ∧ subdivide 1 1 port island 1 port 3e8 = .ok (.hits [⟨.startInside, port.toDegrees, 0⟩, ⟨.endInside, island.toDegrees, d / 1⟩] (d / 1)) := seen

/-- A sensor a hundred thousand kilometres up that sees a thousand metres. -/
example : subdivide 1 1 port island 1 ⟨0, 0, 1e8, false⟩ 1000 = .ok .bad := by
  obtain ⟨d, hd, h6⟩ := port_island
  refine c82_nowhere one_pos one_ne_zero port_lat island_lat hd (by norm_num; linarith) fun γ w D _ x t _ _ _ _ hx hin => ?_
  have h1 := above_le x
  have h3 := climb hx
  have h2 : 1e8 - 6378137 ≤ ‖above (toTuple 1 ⟨0, 0, 1e8, false⟩)‖ := by
    unfold above
    have h4 := norm_sub_norm_le ((toTuple 1 ⟨0, 0, 1e8, false⟩).2 • place (toTuple 1 ⟨0, 0, 1e8, false⟩).1) (-ground (toTuple 1 ⟨0, 0, 1e8, false⟩).1)
    rw [norm_neg, sub_neg_eq_add, norm_smul, Verif.Globe.place_norm, mul_one, toTuple_alt, add_comm (_ • _)] at h4
    rw [toTuple_alt]
    have h5 := ground_le (toTuple 1 ⟨0, 0, 1e8, false⟩).1
    norm_num at h4 ⊢
    linarith
  unfold InRange at hin
  rw [dist_eq_norm] at hin
  have h7 := norm_sub_norm_le (above (toTuple 1 ⟨0, 0, 1e8, false⟩)) (above x)
  rw [norm_sub_rev] at h7
  norm_num at hin h2
  linarith

example : ∃ l pt, subdivide 1 1 port island 1 port 3e8 = .ok (.hits l pt) ∧ ∃ γ w D, Leg (deg port) (deg island) γ w D ∧ pt * (1 * 1) = D ∧
    ∀ x ∈ l, Right 1 1 1 3e8 port island port γ w D pt x := by
  obtain ⟨d, -, h⟩ := seen
  exact ⟨_, _, h, (c82_hits_partial one_pos one_ne_zero one_pos port_lat island_lat h).2⟩

/-- The first 9260 m are in range. -/
example : ∃ ans, subdivide 1 1 port island 1 port 3e8 = .ok ans ∧ ans ≠ .bad := by
  obtain ⟨d, -, h⟩ := seen
  refine ⟨_, h, ?_⟩
  obtain ⟨γ, w, D, hleg, hn⟩ := c82_noticed port_lat island_lat h
  refine (hn 0 le_rfl ?_ fun x t _ _ _ _ hx => moon hx).2
  have h1 := hleg.line.start.dist hleg.line hleg.finish
  rw [hleg.start, port_deg, island_deg, zero_sub, abs_neg, abs_of_nonneg hleg.length0] at h1
  have e1 : ground (0, 0) 0 = a := by rw [ground_eq ⟨by norm_num, by norm_num⟩]; simp [radians, show reduced 0 = 0 by simp [reduced, radians]]
  have e2 : ground (45, 90) 0 = 0 := by
    have : radians 90 = π / 2 := by unfold radians; ring
    rw [ground_eq ⟨by norm_num, by norm_num⟩]; simp [this]
  have h2 := PiLp.norm_apply_le (ground (0, 0) - ground (45, 90)) 0
  rw [PiLp.sub_apply, e1, e2, sub_zero, Real.norm_eq_abs, abs_of_pos a_pos, ← dist_eq_norm] at h2
  have h3 : a = 6378137 := rfl
  norm_num at h1
  linarith

/-- From the Gulf of Guinea to the Pacific, half a degree short of the opposite place. -/
example : ∃ e, subdivide 1852 0.3048 port ⟨0, 179.5, 0, false⟩ 10 port 50 = .error e :=
  c82_antipodal _ _ _ _ _ _ _ (by simp [deg, port, Geo.toDegrees]) (by simp [deg, Geo.toDegrees]) (by simp [deg, port, Geo.toDegrees]; norm_num)
    (by simp [deg, port, Geo.toDegrees]; norm_num)

/-- A leg of about 111 m along the equator. -/
example : subdivide 1 1 port ⟨0, 0.001, 0, false⟩ 10 port 50 = .error .tooSmall := by
  have e1 : deg ⟨0, 0.001, 0, false⟩ = (0, 0.001) := by simp [deg, Geo.toDegrees]
  obtain ⟨d, hd, h⟩ := c71_equator (k := 1) (tol := 1e-12) (n := 200) (p := (0, 0)) (q := (0, 0.001)) one_pos le_rfl (by norm_num) rfl rfl (by norm_num)
    (by unfold f; norm_num)
  refine c82_short 1 1 10 50 port ⟨0, 0.001, 0, false⟩ port one_pos (by norm_num) (d := d) ?_ ?_
  · rw [port_deg, e1]; unfold distance; rw [hd]; rfl
  · have h1 := (abs_le.1 h).2
    have h2 : radians ((0, 0.001) : LL).2 - 0 ≤ 0.0000175 := by
      unfold radians
      have := pi_lt_d2
      norm_num at this ⊢
      linarith
    have h3 : a = 6378137 := rfl
    simp only [sub_zero] at h1 h2
    rw [h3] at h1
    norm_num at h1 h2 ⊢
    linarith

end Verif.Subdiv.Wgs84
