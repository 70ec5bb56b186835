import Verif.Subdiv.WgsProps
import Verif.Subdiv.Answers
import Verif.Crossing.Goes
import Verif.Geod.West

/-! # C82: legs along the equator -/

namespace Verif.Subdiv.Wgs84

open Verif.Path Verif.Geod Verif.Crossing Real
open Verif.Globe (LL E3 radians degrees place vec)
open Verif.Wgs (a b f a_pos b_pos f_pos lla2ecef)

/-- A place on the equator, `w` times as far east of the longitude `lo` as at most `span`, at the altitude `h`. -/
structure Along (lo span w h : ℝ) (x : Lla) : Prop where
  lat : x.1.1 = 0
  alt : x.2 = h
  begun : 0 ≤ w * (x.1.2 - lo)
  within : w * (x.1.2 - lo) ≤ span

/-- A stretch of the equator in the direction `w`. -/
def Stretch (lo span w h : ℝ) (x y : Lla) : Prop := Along lo span w h x ∧ Along lo span w h y ∧ 0 < w * (y.1.2 - x.1.2)

variable {lo span w h : ℝ}

theorem err_le : 5e-7 + a * 1e-12 ≤ 7e-6 := by unfold a; norm_num

/-- The length of a stretch. -/
theorem stretch_dist (hw : w = 1 ∨ w = -1) (hsp : span < 180 * (1 - f)) (c : Lla) (r : ℝ) {x y : Lla} (hC : Stretch lo span w h x y) :
    |(ellipsoid c r).dist x y - a * radians (w * (y.1.2 - x.1.2))| ≤ 7e-6 ∧ distBearing 1000 1e-12 200 x.1 y.1 = .ok ((ellipsoid c r).dist x y / 1000, 180 - 90 * w) := by
  obtain ⟨hx, hy, h0⟩ := hC
  have h1 : w * (y.1.2 - x.1.2) < 180 * (1 - f) := by have := hx.begun; have := hy.within; linarith
  obtain ⟨d, hd, he⟩ := c71_equator_ways (k := 1000) (tol := 1e-12) (n := 200) (by norm_num) le_rfl (by norm_num) hx.lat hy.lat hw h0 h1
  have hd1 := distBearing_scale (by norm_num) one_ne_zero hd
  have e : (ellipsoid c r).dist x y = d * 1000 / 1 := (wgs84_dist hd1).1
  rw [e, div_one]
  refine ⟨he.trans err_le, ?_⟩
  rw [hd]; norm_num

/-- The longitude of sample `i`. -/
noncomputable def mark (w D : ℝ) (n : ℕ) (x y : Lla) (i : ℕ) : ℝ := if i = n then y.1.2 else x.1.2 + w * degrees (D * i / n / a)

theorem stretch_samples (hw : w = 1 ∨ w = -1) (hsp : span < 180 * (1 - f)) (c : Lla) (r : ℝ) {x y : Lla} (hC : Stretch lo span w h x y) {n : ℕ} (hn : 3 ≤ n)
    (hlong : 30 * (n : ℝ) ≤ (ellipsoid c r).dist x y) :
    (ellipsoid c r).raises x y n = false ∧ ((ellipsoid c r).samples x y n).length = n + 1 ∧
      ((ellipsoid c r).samples x y n)[0]? = some x ∧ ((ellipsoid c r).samples x y n)[n]? = some y ∧
      ∀ (i : ℕ) z, ((ellipsoid c r).samples x y n)[i]? = some z → i ≤ n ∧ z = ((0, mark w ((ellipsoid c r).dist x y) n x y i), h) := by
  obtain ⟨hD, hb⟩ := stretch_dist hw hsp c r hC
  obtain ⟨hx, hy, h0⟩ := hC
  set D := (ellipsoid c r).dist x y with hDd
  have latx : Lat x.1 := by unfold Lat; rw [hx.lat]; constructor <;> norm_num
  have laty : Lat y.1 := by unfold Lat; rw [hy.lat]; constructor <;> norm_num
  obtain ⟨ls, hls⟩ := c71_linspace_ok latx (by omega : 2 ≤ n) hb
  have hr : (ellipsoid c r).raises x y n = false := by
    unfold ellipsoid ecefAndGeoLinspace
    simp only [hls]
  obtain ⟨-, D', -, -, -, -, hlen, γ, v, -, -, -, e0, en, hi⟩ := samples84 (c := c) (r := r) latx laty hr
  refine ⟨hr, hlen, e0, en, fun i z hz => ?_⟩
  obtain ⟨hin, -, -, h2⟩ := hi i z hz
  refine ⟨hin, ?_⟩
  have halt : z.2 = h := by rw [h2, hx.alt, hy.alt]; ring
  have hn0 : (0 : ℝ) < n := by exact_mod_cast (by omega : 0 < n)
  refine Prod.ext ?_ halt
  show z.1 = (0, mark w D n x y i)
  unfold mark
  by_cases h1 : i = n
  · subst h1
    rw [en] at hz
    cases hz
    rw [if_pos rfl]
    exact Prod.ext hy.lat rfl
  rw [if_neg h1]
  by_cases h3 : i = 0
  · subst h3
    rw [e0] at hz
    cases hz
    refine Prod.ext hx.lat ?_
    simp [degrees]
  obtain ⟨k1, -, -, d, β, hd, k4⟩ := c71_linspace hls
  rw [hb] at hd
  cases hd
  obtain ⟨q, hq, hp⟩ := k4 i (by omega) (by omega)
  have hz1 : z.1 = q := by
    unfold ellipsoid ecefAndGeoLinspace at hz
    simp only [hls] at hz
    rw [List.getElem?_zip_eq_some] at hz
    have := hz.1
    rw [hq] at this
    exact (Option.some.inj this).symm
  rw [hz1]
  have hbig : (D / 1000 * i / n) * 1000 = D * i / n := by ring
  have hi1 : (i : ℝ) + 1 ≤ n := by exact_mod_cast (by omega : i + 1 ≤ n)
  have hDpos : 0 ≤ D := by linarith
  have hlt : D * i / n < b * π := by
    have h4 : D * i / n ≤ D - D / n := by
      rw [show D - D / n = D * (n - 1) / n by field_simp]
      gcongr
      linarith
    have h5 : 30 ≤ D / n := by rw [le_div_iff₀ hn0]; exact hlong
    have h6 : a * radians (w * (y.1.2 - x.1.2)) ≤ b * π := by
      have e1 : w * (y.1.2 - x.1.2) ≤ 180 * (1 - f) := by have := hx.begun; have := hy.within; linarith
      have e2 : radians (w * (y.1.2 - x.1.2)) ≤ (1 - f) * π := by
        unfold radians
        have := mul_le_mul_of_nonneg_right e1 (by positivity : 0 ≤ π / 180)
        linarith
      have := mul_le_mul_of_nonneg_left e2 a_pos.le
      have hb' : b = a * (1 - f) := rfl
      rw [hb']; linarith
    have := (abs_le.1 hD).2
    norm_num at this
    linarith
  have := c71_equator_exact (k := 1000) (tol := 1e-12) (n := 200) (p := x.1) (w := w) (d := D / 1000 * i / n) (by norm_num) (by norm_num) hx.lat hw
    (by rw [hbig]; positivity) (by rw [hbig]; exact hlt)
  rw [hp, hbig] at this
  exact Except.ok.inj this

/-- The samples go on and on. -/
theorem mark_lt (hw : w = 1 ∨ w = -1) {x y : Lla} {D : ℝ} {n : ℕ} (hn : 3 ≤ n) (hlong : 30 * (n : ℝ) ≤ D) (hD : |D - a * radians (w * (y.1.2 - x.1.2))| ≤ 7e-6) {i j : ℕ}
    (hij : i < j) (hj : j ≤ n) : D / n * (j - i : ℕ) - 7e-6 ≤ a * radians (w * (mark w D n x y j - mark w D n x y i)) := by
  have hn0 : (0 : ℝ) < n := by exact_mod_cast (by omega : 0 < n)
  have ha := a_pos
  have hw2 : w * w = 1 := by rcases hw with rfl | rfl <;> norm_num
  have rd : ∀ t, radians (degrees t) = t := fun t => by unfold radians degrees; field_simp
  have ra : ∀ s t, radians (s + t) = radians s + radians t := fun s t => by unfold radians; ring
  have rs : ∀ s t, radians (s - t) = radians s - radians t := fun s t => by unfold radians; ring
  have hc : ((j - i : ℕ) : ℝ) = (j : ℝ) - i := by rw [Nat.cast_sub hij.le]
  unfold mark
  rw [if_neg (by omega : ¬ i = n), hc]
  by_cases h : j = n
  · rw [if_pos h]
    have e : w * (y.1.2 - (x.1.2 + w * degrees (D * i / n / a))) = w * (y.1.2 - x.1.2) - degrees (D * i / n / a) := by linear_combination -degrees (D * i / n / a) * hw2
    rw [e, rs, rd, mul_sub a]
    have e2 : a * (D * i / n / a) = D * i / n := by field_simp
    have e3 : D / n * ((j : ℝ) - i) = D - D * i / n := by rw [h]; field_simp
    rw [e2, e3]
    have := (abs_le.1 hD).2
    linarith
  · rw [if_neg h]
    have e : w * (x.1.2 + w * degrees (D * j / n / a) - (x.1.2 + w * degrees (D * i / n / a))) = degrees (D * j / n / a) - degrees (D * i / n / a) := by
      linear_combination (degrees (D * j / n / a) - degrees (D * i / n / a)) * hw2
    rw [e, rs, rd, rd]
    have e2 : a * (D * j / n / a - D * i / n / a) = D / n * (j - i) := by field_simp
    rw [e2]
    norm_num

/-- Being in range, on the equator at one altitude, is a matter of a wave. -/
theorem equator_wave (c : Lla) (r h : ℝ) (hr : 0 ≤ r) : ∃ p q κ : ℝ, ∀ lon : ℝ, InRange r c ((0, lon), h) ↔ κ ≤ p * cos (radians lon) + q * sin (radians lon) := by
  refine ⟨2 * (a + h) * (above c) 0, 2 * (a + h) * (above c) 1, (a + h) ^ 2 + ((above c) 0 ^ 2 + (above c) 1 ^ 2 + (above c) 2 ^ 2) - r ^ 2, fun lon => ?_⟩
  have hx : above ((0, lon), h) = !₂[(a + h) * cos (radians lon), (a + h) * sin (radians lon), 0] := by
    unfold above ground place lla2ecef vec
    ext i
    fin_cases i <;> simp [radians, mul_div_assoc] <;> ring
  have e : dist (above ((0, lon), h)) (above c) ^ 2 = (a + h) ^ 2 - 2 * (a + h) * ((above c) 0 * cos (radians lon) + (above c) 1 * sin (radians lon)) +
      ((above c) 0 ^ 2 + (above c) 1 ^ 2 + (above c) 2 ^ 2) := by
    rw [EuclideanSpace.dist_eq, sq_sqrt (by positivity), Fin.sum_univ_three, hx]
    simp only [Real.dist_eq, sq_abs]
    have := sin_sq_add_cos_sq (radians lon)
    simp
    linear_combination (a + h) ^ 2 * this
  unfold InRange
  rw [← abs_of_nonneg (dist_nonneg (x := above ((0, lon), h)) (y := above c)), ← abs_of_nonneg hr, ← sq_le_sq, e, abs_of_nonneg hr]
  constructor <;> intro h <;> linarith

/-- Four places in order with status in, out, in, out or the reverse: not on a wave. -/
theorem wave_four {p q κ α β γ δ : ℝ} (h1 : α < β) (h2 : β < γ) (h3 : γ < δ) (h4 : δ - α < π)
    (hs : (κ ≤ p * cos α + q * sin α ∧ p * cos β + q * sin β < κ ∧ κ ≤ p * cos γ + q * sin γ ∧ p * cos δ + q * sin δ < κ) ∨
      (p * cos α + q * sin α < κ ∧ κ ≤ p * cos β + q * sin β ∧ p * cos γ + q * sin γ < κ ∧ κ ≤ p * cos δ + q * sin δ)) : False := by
  rcases hs with ⟨a1, a2, a3, a4⟩ | ⟨a1, a2, a3, a4⟩
  · have := wave_in h1 h2 (by linarith) a1 a2 a3
    have := wave_out h2 h3 (by linarith) a2 a3 a4
    linarith
  · have := wave_out h1 h2 (by linarith) a1 a2 a3
    have := wave_in h2 h3 (by linarith) a2 a3 a4
    linarith

theorem samples_ends {E : Earth ℝ Lla} {x y : Lla} {n : ℕ} (hl : (E.samples x y n).length = n + 1) (h0 : (E.samples x y n)[0]? = some x)
    (hn : (E.samples x y n)[n]? = some y) : (E.samples x y n).head? = some x ∧ (E.samples x y n).getLast? = some y := by
  constructor
  · rw [List.head?_eq_getElem?]; exact h0
  · rw [List.getLast?_eq_getElem?, hl]; exact hn

theorem rad_pos {t : ℝ} : 0 < a * radians t ↔ 0 < t := by
  have ha := a_pos
  have : 0 < π / 180 := by positivity
  unfold radians
  rw [mul_pos_iff_of_pos_left ha, mul_pos_iff_of_pos_right this]

/-- A step. -/
theorem mark_step (hw : w = 1 ∨ w = -1) {x y : Lla} {D : ℝ} {n : ℕ} (hn : 3 ≤ n) (hD : |D - a * radians (w * (y.1.2 - x.1.2))| ≤ 7e-6) {i : ℕ} (hi : i + 1 ≤ n) :
    a * radians (w * (mark w D n x y (i + 1) - mark w D n x y i)) ≤ D / n + 7e-6 := by
  have hn0 : (0 : ℝ) < n := by exact_mod_cast (by omega : 0 < n)
  have ha := a_pos
  have hw2 : w * w = 1 := by rcases hw with rfl | rfl <;> norm_num
  have rd : ∀ t, radians (degrees t) = t := fun t => by unfold radians degrees; field_simp
  have rs : ∀ s t, radians (s - t) = radians s - radians t := fun s t => by unfold radians; ring
  unfold mark
  rw [if_neg (by omega : ¬ i = n)]
  by_cases h : i + 1 = n
  · rw [if_pos h]
    have e : w * (y.1.2 - (x.1.2 + w * degrees (D * i / n / a))) = w * (y.1.2 - x.1.2) - degrees (D * i / n / a) := by linear_combination -degrees (D * i / n / a) * hw2
    rw [e, rs, rd, mul_sub a]
    have e2 : a * (D * i / n / a) = D * i / n := by field_simp
    have e3 : D / n = D - D * i / n := by
      have : (n : ℝ) = i + 1 := by rw [← h]; push_cast; ring
      field_simp
      rw [this]; ring
    rw [e2, e3]
    have := (abs_le.1 hD).1
    linarith
  · rw [if_neg h]
    have e : w * (x.1.2 + w * degrees (D * (i + 1 : ℕ) / n / a) - (x.1.2 + w * degrees (D * i / n / a))) = degrees (D * (i + 1 : ℕ) / n / a) - degrees (D * i / n / a) := by
      linear_combination (degrees (D * (i + 1 : ℕ) / n / a) - degrees (D * i / n / a)) * hw2
    rw [e, rs, rd, rd]
    have e2 : a * (D * (i + 1 : ℕ) / n / a - D * i / n / a) = D / n := by push_cast; field_simp; ring
    rw [e2]
    norm_num

/-- Neighbouring samples of a stretch. -/
theorem stretch_nb (hw : w = 1 ∨ w = -1) (hsp : span < 180 * (1 - f)) (c : Lla) (r : ℝ) {x y : Lla} (hC : Stretch lo span w h x y) {n : ℕ} (hn : 3 ≤ n)
    (hlong : 30 * (n : ℝ) ≤ (ellipsoid c r).dist x y) {y' z' : Lla} (hnb : Neighbours ((ellipsoid c r).samples x y n) y' z') :
    Stretch lo span w h y' z' ∧ (ellipsoid c r).dist x y / n - 7e-6 ≤ a * radians (w * (z'.1.2 - y'.1.2)) ∧
      a * radians (w * (z'.1.2 - y'.1.2)) ≤ (ellipsoid c r).dist x y / n + 7e-6 := by
  obtain ⟨hD, -⟩ := stretch_dist hw hsp c r hC
  obtain ⟨-, hlen, e0, en, hi⟩ := stretch_samples hw hsp c r hC hn hlong
  obtain ⟨hx, hy, h0⟩ := hC
  set D := (ellipsoid c r).dist x y with hDd
  obtain ⟨i, h1, h2⟩ := nb_index hnb
  obtain ⟨i1, rfl⟩ := hi i _ h1
  obtain ⟨i2, rfl⟩ := hi (i + 1) _ h2
  have hn0 : (0 : ℝ) < n := by exact_mod_cast (by omega : 0 < n)
  have h30 : 30 ≤ D / n := by rw [le_div_iff₀ hn0]; exact hlong
  have step := mark_lt hw hn hlong hD (by omega : i < i + 1) i2
  have step' := mark_step hw hn hD i2
  have m0 : mark w D n x y 0 = x.1.2 := by
    obtain ⟨-, h3⟩ := hi 0 _ e0
    have := congrArg (fun z : Lla => z.1.2) h3
    exact this.symm
  have mn : mark w D n x y n = y.1.2 := by unfold mark; rw [if_pos rfl]
  have mono : ∀ i j : ℕ, i ≤ j → j ≤ n → 0 ≤ w * (mark w D n x y j - mark w D n x y i) := fun i j hij hj => by
    rcases hij.lt_or_eq with hlt | rfl
    · have := mark_lt hw hn hlong hD hlt hj
      have hc : (1 : ℝ) ≤ ((j - i : ℕ) : ℝ) := by exact_mod_cast (by omega : 1 ≤ j - i)
      have : 0 < a * radians (w * (mark w D n x y j - mark w D n x y i)) := by
        norm_num at this
        nlinarith
      exact (rad_pos.1 this).le
    · simp
  have al : ∀ i ≤ n, Along lo span w h ((0, mark w D n x y i), h) := fun i hi => by
    have g1 := mono 0 i (by omega) hi
    have g2 := mono i n hi le_rfl
    rw [m0] at g1
    rw [mn] at g2
    refine ⟨rfl, rfl, ?_, ?_⟩
    · have := hx.begun; simp only; linarith
    · have := hy.within; simp only; linarith
  refine ⟨⟨al i i1, al _ i2, ?_⟩, ?_, step'⟩
  · have : 0 < a * radians (w * (mark w D n x y (i + 1) - mark w D n x y i)) := by
      norm_num at step
      linarith
    exact rad_pos.1 this
  · simpa using step

/-- The search goes along the equator. -/
theorem equator_goes (hw : w = 1 ∨ w = -1) (hsp : span < 180 * (1 - f)) (c : Lla) {r : ℝ} (hr : 0 ≤ r) : Goes (ellipsoid c r) (Stretch lo span w h) where
  nonempty := ellipsoid_nonempty c r
  sampled x y n hC hn hlong := by
    obtain ⟨h1, h2, h3, h4, -⟩ := stretch_samples hw hsp c r hC hn hlong
    obtain ⟨h5, h6⟩ := samples_ends h2 h3 h4
    exact ⟨h1, h5, h6⟩
  step x y n hC hn hlong y' z' hnb := by
    obtain ⟨h1, h2, -⟩ := stretch_nb hw hsp c r hC hn hlong hnb
    refine ⟨h1, ?_⟩
    obtain ⟨h3, -⟩ := stretch_dist hw hsp c r h1
    have hn0 : (0 : ℝ) < n := by exact_mod_cast (by omega : 0 < n)
    have h4 : (ellipsoid c r).dist x y / n - 14e-6 ≤ (ellipsoid c r).dist y' z' := by
      have := (abs_le.1 h3).1
      norm_num at this h2 ⊢
      linarith
    have h5 : (ellipsoid c r).dist x y - 14e-6 * n ≤ n * (ellipsoid c r).dist y' z' := by
      have := mul_le_mul_of_nonneg_left h4 hn0.le
      rw [mul_sub, mul_div_cancel₀ _ hn0.ne'] at this
      linarith
    norm_num at h5 ⊢
    linarith
  once x y n hC hn hlong hne := by
    obtain ⟨hD, -⟩ := stretch_dist hw hsp c r hC
    obtain ⟨-, hlen, e0, en, hi⟩ := stretch_samples hw hsp c r hC hn hlong
    have hC' := hC
    obtain ⟨hx, hy, h0⟩ := hC'
    set D := (ellipsoid c r).dist x y with hDd
    have hn0 : (0 : ℝ) < n := by exact_mod_cast (by omega : 0 < n)
    have h30 : 30 ≤ D / n := by rw [le_div_iff₀ hn0]; exact hlong
    have mono : ∀ i j : ℕ, i < j → j ≤ n → 0 < w * (mark w D n x y j - mark w D n x y i) := fun i j hlt hj => by
      have := mark_lt hw hn hlong hD hlt hj
      have hc : (1 : ℝ) ≤ ((j - i : ℕ) : ℝ) := by exact_mod_cast (by omega : 1 ≤ j - i)
      have : 0 < a * radians (w * (mark w D n x y j - mark w D n x y i)) := by
        norm_num at this
        nlinarith
      exact rad_pos.1 this
    obtain ⟨p, q, κ, hwave⟩ := equator_wave c r h hr
    -- angles in the direction of the leg
    have hang : ∀ lon : ℝ, InRange r c ((0, lon), h) ↔ κ ≤ p * cos (radians (w * lon)) + (q * w) * sin (radians (w * lon)) := fun lon => by
      rw [hwave]
      rcases hw with rfl | rfl
      · simp
      · have : radians (-1 * lon) = -radians lon := by unfold radians; ring
        rw [this, cos_neg, sin_neg]
        simp
    have hin : ∀ lon : ℝ, (ellipsoid c r).inside ((0, lon), h) = true ↔ κ ≤ p * cos (radians (w * lon)) + (q * w) * sin (radians (w * lon)) := fun lon => by
      rw [ellipsoid_inside]; exact hang lon
    have hout : ∀ lon : ℝ, (ellipsoid c r).inside ((0, lon), h) = false ↔ p * cos (radians (w * lon)) + (q * w) * sin (radians (w * lon)) < κ := fun lon => by
      rw [← not_le, ← hin lon]; simp
    apply flips_mono _ ((ellipsoid c r).inside y)
    rw [List.pairwise_iff_getElem]
    intro i j hil hjl hij hyi
    by_contra hz
    obtain ⟨i1, ei⟩ := hi i _ (List.getElem?_eq_getElem hil)
    obtain ⟨j1, ej⟩ := hi j _ (List.getElem?_eq_getElem hjl)
    obtain ⟨-, ex⟩ := hi 0 _ e0
    obtain ⟨-, ey⟩ := hi n _ en
    have hi0 : 0 < i := by
      rcases Nat.eq_zero_or_pos i with rfl | h
      · rw [ei, ← ex] at hyi; exact absurd hyi hne
      · exact h
    have hjn : j < n := by
      rcases j1.lt_or_eq with h | rfl
      · exact h
      · rw [ej, ← ey] at hz; exact absurd rfl hz
    have sx := congrArg (ellipsoid c r).inside ex
    have sy := congrArg (ellipsoid c r).inside ey
    rw [ei, sy] at hyi
    rw [ej, sy] at hz
    rw [sx, sy] at hne
    have rl : ∀ {s t : ℝ}, 0 < w * (t - s) → radians (w * s) < radians (w * t) := fun {s t} h => by
      unfold radians
      have : w * s < w * t := by linarith
      gcongr
    refine wave_four (p := p) (q := q * w) (κ := κ) (rl (mono 0 i hi0 i1)) (rl (mono i j hij j1)) (rl (mono j n hjn le_rfl)) ?_ ?_
    · have m0 : mark w D n x y 0 = x.1.2 := (congrArg (fun z : Lla => z.1.2) ex).symm
      have mn : mark w D n x y n = y.1.2 := by unfold mark; rw [if_pos rfl]
      rw [m0, mn]
      have e1 : w * y.1.2 - w * x.1.2 < 180 := by
        have := hx.begun; have := hy.within; have := f_pos
        linarith
      have : radians (w * y.1.2) - radians (w * x.1.2) = (w * y.1.2 - w * x.1.2) * (π / 180) := by unfold radians; ring
      rw [this]
      have := mul_lt_mul_of_pos_right e1 (by positivity : 0 < π / 180)
      linarith
    · simp only [← hin, ← hout]
      clear sx sy
      revert hyi hz hne
      cases (ellipsoid c r).inside ((0, mark w D n x y 0), h) <;> cases (ellipsoid c r).inside ((0, mark w D n x y n), h) <;>
        cases (ellipsoid c r).inside ((0, mark w D n x y i), h) <;> cases (ellipsoid c r).inside ((0, mark w D n x y j), h) <;> simp

theorem apart_along {k : ℝ} (hk : 0 < k) (hw : w = 1 ∨ w = -1) {g s : Geo} (hg : (deg g).1 = 0) (hs : (deg s).1 = 0) (h0 : 0 ≤ w * ((deg g).2 - (deg s).2))
    (h1 : w * ((deg g).2 - (deg s).2) < 180 * (1 - f)) : ∃ d, apart k g s = .ok d ∧ |d * k - a * radians (w * ((deg g).2 - (deg s).2))| ≤ 7e-6 := by
  rcases h0.lt_or_eq with h0 | h0
  · obtain ⟨d, hd, he⟩ := c71_equator_ways (k := k) (tol := 1e-12) (n := 200) hk le_rfl (by norm_num) hs hg hw h0 h1
    refine ⟨d, ?_, he.trans err_le⟩
    have : distance k 1e-12 200 (deg s) (deg g) = .ok d := by unfold distance; rw [hd]; rfl
    rw [c71_symmetric] at this
    unfold apart
    unfold deg at this
    rw [this]
  · refine ⟨0, apart_self g s (Prod.ext (hg.trans hs.symm) ?_), ?_⟩
    · have : (deg g).2 - (deg s).2 = 0 := by
        rcases hw with rfl | rfl
        · linarith
        · linarith
      linarith
    · rw [← h0]; unfold radians; norm_num

theorem hits_along {k ka v : ℝ} (hk : 0 < k) (hka : ka ≠ 0) {s : Geo} {l : List (Cond Lla)} (h : ∀ m ∈ l, ∃ d, apart k ⟨m.b.1.1, m.b.1.2, m.b.2 / ka, false⟩ s = .ok d) :
    ∃ xs, hits k ka v s l = .ok xs := by
  induction l with
  | nil => exact ⟨[], rfl⟩
  | cons m l ih =>
    obtain ⟨xs, hxs⟩ := ih fun m hm => h m (List.mem_cons_of_mem _ hm)
    obtain ⟨d, hd⟩ := h m (List.mem_cons_self ..)
    unfold hits
    simp only [hd, hxs]
    exact ⟨_, rfl⟩

/-- What a report along the equator promises: it is on the leg, in range, and the mover is there at the time reported, to 7 micrometres; within 46.4 m before
an ENTER and after an EXIT the mover is out of range. -/
structure Exact (k ka v r w : ℝ) (s f c : Geo) (pt : ℝ) (x : Hit) : Prop where
  lat : (deg x.loc).1 = 0
  alt : x.loc.alt * ka = s.alt * ka
  begun : 0 ≤ w * ((deg x.loc).2 - (deg s).2)
  within : w * ((deg x.loc).2 - (deg s).2) ≤ w * ((deg f).2 - (deg s).2)
  time : |x.time * (v * k) - a * radians (w * ((deg x.loc).2 - (deg s).2))| ≤ 7e-6
  inRange : InRange (r * k) (toTuple ka c) (toTuple ka x.loc)
  kinds : x.kind = .startInside ∨ x.kind = .endInside ∨ x.kind = .enter ∨ x.kind = .exit
  start : x.kind = .startInside → x.time = 0 ∧ toTuple ka x.loc = toTuple ka s
  finish : x.kind = .endInside → x.time = pt ∧ toTuple ka x.loc = toTuple ka f
  enter : x.kind = .enter → ∃ lon, 0 ≤ w * (lon - (deg s).2) ∧ 0 < w * ((deg x.loc).2 - lon) ∧ a * radians (w * ((deg x.loc).2 - lon)) ≤ 46.4 ∧
    ¬ InRange (r * k) (toTuple ka c) ((0, lon), s.alt * ka)
  exit : x.kind = .exit → ∃ lon, w * (lon - (deg s).2) ≤ w * ((deg f).2 - (deg s).2) ∧ 0 < w * (lon - (deg x.loc).2) ∧ a * radians (w * (lon - (deg x.loc).2)) ≤ 46.4 ∧
    ¬ InRange (r * k) (toTuple ka c) ((0, lon), s.alt * ka)

theorem short_step (hw : w = 1 ∨ w = -1) (hsp : span < 180 * (1 - f)) (c : Lla) (r : ℝ) {y z : Lla} (h : Short (ellipsoid c r) (Stretch lo span w h) y z) :
    a * radians (w * (z.1.2 - y.1.2)) ≤ 46.4 := by
  obtain ⟨p, q, n, hC, hn, hlong, hlt, hnb⟩ := h
  obtain ⟨-, -, h1⟩ := stretch_nb hw hsp c r hC hn hlong hnb
  have hn0 : (0 : ℝ) < n := by exact_mod_cast (by omega : 0 < n)
  have : (ellipsoid c r).dist p q / n < 46.3 := by rw [div_lt_iff₀ hn0]; exact hlt
  norm_num at this h1 ⊢
  linarith

/-- **C82, along the equator.** Every level leg along the equator, eastwards (`w = 1`) or westwards (`w = -1`), of at least 1157.51 m and short of the
antipode, gets an answer, and the answer is right; if one of the ends is in range and the other is not, it is that end and one crossing. -/
theorem c82_equator {k ka v r : ℝ} {s f c : Geo} (hk : 0 < k) (hka : ka ≠ 0) (hv : v ≠ 0) (hr : 0 ≤ r) (hs : (deg s).1 = 0) (hf : (deg f).1 = 0)
    (hlevel : s.alt = f.alt) (hw : w = 1 ∨ w = -1) (h0 : 1157.51 ≤ a * radians (w * ((deg f).2 - (deg s).2))) (h1 : w * ((deg f).2 - (deg s).2) < 180 * (1 - Wgs.f)) :
    ∃ ans, subdivide k ka s f v c r = .ok ans ∧ (∀ l pt, ans = .hits l pt →
      |pt * (v * k) - a * radians (w * ((deg f).2 - (deg s).2))| ≤ 7e-6 ∧ (∀ x ∈ l, Exact k ka v r w s f c pt x)) ∧
      (InRange (r * k) (toTuple ka c) (toTuple ka s) → ¬ InRange (r * k) (toTuple ka c) (toTuple ka f) → ans.kinds = [.startInside, .exit]) ∧
      (¬ InRange (r * k) (toTuple ka c) (toTuple ka s) → InRange (r * k) (toTuple ka c) (toTuple ka f) → ans.kinds = [.enter, .endInside]) := by
  have hpos : 0 < w * ((deg f).2 - (deg s).2) := rad_pos.1 (lt_of_lt_of_le (by norm_num) h0)
  set E := ellipsoid (toTuple ka c) (r * k) with hE
  set span := w * ((deg f).2 - (deg s).2) with hspan
  have G : Goes E (Stretch (deg s).2 span w (s.alt * ka)) := equator_goes hw h1 (toTuple ka c) (mul_nonneg hr hk.le)
  have hC : Stretch (deg s).2 span w (s.alt * ka) (toTuple ka s) (toTuple ka f) :=
    ⟨⟨hs, toTuple_alt ka s, by rw [deg_tuple]; simp, by rw [deg_tuple]; simpa using hpos.le⟩,
      ⟨hf, by rw [toTuple_alt, hlevel], by rw [deg_tuple]; exact hpos.le, by rw [deg_tuple]⟩, by rw [deg_tuple, deg_tuple]; exact hpos⟩
  have hlong : 1157.5 ≤ E.dist (toTuple ka s) (toTuple ka f) := by
    obtain ⟨h2, -⟩ := stretch_dist hw h1 (toTuple ka c) (r * k) hC
    rw [deg_tuple, deg_tuple] at h2
    have := (abs_le.1 h2).1
    norm_num at this h0 ⊢
    linarith
  obtain ⟨l, hl, hrep⟩ := G.answers hC hlong
  have hal : ∀ m ∈ l, Along (deg s).2 span w (s.alt * ka) m.b := fun m hm => by
    obtain ⟨-, ⟨-, h⟩ | ⟨-, h⟩ | ⟨-, y, h, -⟩ | ⟨-, y, h, -⟩⟩ := hrep m hm
    · rw [h]; exact hC.1
    · rw [h]; exact hC.2.1
    · exact h.2.1
    · exact h.1
  have hap : ∀ m ∈ l, ∃ d, apart k ⟨m.b.1.1, m.b.1.2, m.b.2 / ka, false⟩ s = .ok d ∧ |d * k - a * radians (w * (m.b.1.2 - (deg s).2))| ≤ 7e-6 := fun m hm => by
    have A := hal m hm
    exact apart_along hk hw (g := ⟨m.b.1.1, m.b.1.2, m.b.2 / ka, false⟩) A.lat hs A.begun (lt_of_le_of_lt A.within h1)
  obtain ⟨xs, hxs⟩ := hits_along (v := v) hk hka fun m hm => (hap m hm).imp fun _ h => h.1
  obtain ⟨d, hd, hde⟩ := apart_along hk hw hf hs hpos.le h1
  have hans : ∃ ans, subdivide k ka s f v c r = .ok ans := by
    unfold subdivide
    simp only [hd, if_neg hv, ← hE, hl, hxs]
    split
    · exact ⟨_, rfl⟩
    · exact ⟨_, rfl⟩
  obtain ⟨ans, hans⟩ := hans
  obtain ⟨-, l2, d2, hd2, hl2, hcase⟩ := subdivide_ok hans
  rw [hd] at hd2
  cases hd2
  rw [← hE, hl] at hl2
  cases hl2
  have hkinds : ans.kinds = l.map (·.kind) := by
    rcases hcase with ⟨rfl, rfl⟩ | ⟨-, ys, hys, rfl⟩
    · rfl
    · exact forall₂_kind (hits_ok hys)
  refine ⟨ans, hans, ?_, fun hi ho => ?_, fun ho hi => ?_⟩
  rotate_left
  · rw [← ellipsoid_inside, ← hE] at hi
    rw [← ellipsoid_outside, ← hE] at ho
    rw [hkinds, G.differ hC hlong (by rw [hi, ho]; decide) hl, hi, if_pos rfl]
  · rw [← ellipsoid_inside, ← hE] at hi
    rw [← ellipsoid_outside, ← hE] at ho
    rw [hkinds, G.differ hC hlong (by rw [hi, ho]; decide) hl, ho]; rfl
  rintro l' pt rfl
  rcases hcase with ⟨-, hcase⟩ | ⟨-, xs', hxs', hcase⟩
  · cases hcase
  rw [hxs] at hxs'
  cases hxs'
  obtain ⟨rfl, rfl⟩ : l' = xs ∧ pt = d / v := by injection hcase with e1 e2; exact ⟨e1, e2⟩
  refine ⟨by rw [show d / v * (v * k) = d * k by field_simp]; exact hde, fun x hx => ?_⟩
  obtain ⟨m, hm, hkind, hloc, d', hd', htime⟩ := forall₂_right (hits_ok hxs) x hx
  have hdeg : deg x.loc = m.b.1 := by rw [hloc]; rfl
  have htup : toTuple ka x.loc = m.b := by rw [hloc]; exact tuple_back hka m.b
  have halt : x.loc.alt * ka = m.b.2 := by rw [← toTuple_alt, htup]
  have A := hal m hm
  obtain ⟨d'', hd'', hde'⟩ := hap m hm
  rw [← hloc, hd'] at hd''
  cases hd''
  obtain ⟨hin, hrep⟩ := hrep m hm
  rw [hE, ellipsoid_inside] at hin
  have out : ∀ {y : Lla}, Along (deg s).2 span w (s.alt * ka) y → E.inside y = false → ¬ InRange (r * k) (toTuple ka c) ((0, y.1.2), s.alt * ka) := fun {y} hy ho => by
    rw [hE, ellipsoid_outside] at ho
    have : y = ((0, y.1.2), s.alt * ka) := Prod.ext (Prod.ext hy.lat rfl) hy.alt
    rw [← this]; exact ho
  refine ⟨by rw [hdeg]; exact A.lat, halt.trans A.alt, by rw [hdeg]; exact A.begun, by rw [hdeg]; exact A.within, ?_, by rw [htup]; exact hin, ?_, fun hx => ?_, fun hx => ?_, fun hx => ?_,
    fun hx => ?_⟩
  · rw [htime, hdeg, show d' / v * (v * k) = d' * k by field_simp]; exact hde'
  · rw [hkind]
    rcases hrep with ⟨h, -⟩ | ⟨h, -⟩ | ⟨h, -⟩ | ⟨h, -⟩ <;> simp [h]
  · rw [hkind] at hx
    rcases hrep with ⟨-, h⟩ | ⟨h, -⟩ | ⟨h, -⟩ | ⟨h, -⟩
    · have h' := apart_self (k := k) x.loc s (by rw [hdeg, h, deg_tuple])
      rw [hd'] at h'
      cases h'
      exact ⟨by rw [htime, zero_div], by rw [htup, h]⟩
    all_goals rw [hx] at h; cases h
  · rw [hkind] at hx
    rcases hrep with ⟨h, -⟩ | ⟨-, h⟩ | ⟨h, -⟩ | ⟨h, -⟩
    · rw [hx] at h; cases h
    · have e1 := apart_ok hd'
      have e2 := apart_ok hd
      rw [hdeg, h, deg_tuple] at e1
      rw [e1] at e2
      cases e2
      exact ⟨htime, by rw [htup, h]⟩
    all_goals rw [hx] at h; cases h
  · rw [hkind] at hx
    rcases hrep with ⟨h, -⟩ | ⟨h, -⟩ | ⟨-, y, hy, ho, hsh⟩ | ⟨h, -⟩
    · rw [hx] at h; cases h
    · rw [hx] at h; cases h
    · refine ⟨y.1.2, hy.1.begun, by rw [hdeg]; exact hy.2.2, ?_, out hy.1 ho⟩
      rw [hdeg]; exact short_step hw h1 _ _ hsh
    · rw [hx] at h; cases h
  · rw [hkind] at hx
    rcases hrep with ⟨h, -⟩ | ⟨h, -⟩ | ⟨h, -⟩ | ⟨-, y, hy, ho, hsh⟩
    · rw [hx] at h; cases h
    · rw [hx] at h; cases h
    · rw [hx] at h; cases h
    · refine ⟨y.1.2, hy.2.1.within, by rw [hdeg]; exact hy.2.2, ?_, out hy.2.1 ho⟩
      rw [hdeg]; exact short_step hw h1 _ _ hsh

/-! ### example: a degree along the equator, out of the range of a sensor at its start, and back -/

theorem place_apart {lon lon' : ℝ} : dist (above ((0, lon), 0)) (above ((0, lon'), 0)) ^ 2 = 2 * a ^ 2 * (1 - cos (radians (lon - lon'))) := by
  have hx : ∀ l : ℝ, above ((0, l), 0) = !₂[a * cos (radians l), a * sin (radians l), 0] := fun l => by
    unfold above ground place lla2ecef vec
    ext i
    fin_cases i <;> simp [radians]
  rw [EuclideanSpace.dist_eq, sq_sqrt (by positivity), Fin.sum_univ_three, hx, hx]
  have e : radians (lon - lon') = radians lon - radians lon' := by unfold radians; ring
  simp only [Real.dist_eq, sq_abs]
  rw [e, cos_sub]
  have h1 := sin_sq_add_cos_sq (radians lon)
  have h2 := sin_sq_add_cos_sq (radians lon')
  simp
  linear_combination a ^ 2 * h1 + a ^ 2 * h2

theorem degree_apart : 30000 < dist (above ((0, 1), 0)) (above ((0, 0), 0)) := by
  have h := place_apart (lon := 1) (lon' := 0)
  have hc : cos (radians (1 - 0)) ≤ 1 - 2 / π ^ 2 * (π / 180) ^ 2 := by
    have hr : radians (1 - 0) = π / 180 := by unfold radians; ring
    rw [hr]
    exact cos_le_one_sub_mul_cos_sq (by rw [abs_of_pos (by positivity)]; linarith [pi_pos])
  by_contra hn
  have := not_lt.1 hn
  have h3 : dist (above ((0, 1), 0)) (above ((0, 0), 0)) ^ 2 ≤ 30000 ^ 2 := by gcongr
  rw [h] at h3
  have e : 2 / π ^ 2 * (π / 180) ^ 2 = 2 / 180 ^ 2 := by field_simp
  rw [e] at hc
  unfold a at h3
  generalize cos (radians (1 - 0)) = C at hc h3
  norm_num at hc h3
  linarith

theorem degree_long : (1157.51 : ℝ) ≤ a * radians (1 * (1 - 0)) := by
  have := pi_gt_three
  unfold a radians
  norm_num
  linarith

theorem degree_back : (1157.51 : ℝ) ≤ a * radians (-1 * (0 - 1)) := by
  have := degree_long
  rwa [show (-1 * (0 - 1) : ℝ) = 1 * (1 - 0) from by norm_num]

/-- leaving: the mover starts in range, and one EXIT is reported; whatever is reported is right -/
example : ∃ l pt x, subdivide 1 1 ⟨0, 0, 0, false⟩ ⟨0, 1, 0, false⟩ 10 ⟨0, 0, 0, false⟩ 30000 = .ok (.hits l pt) ∧ l.map (·.kind) = [.startInside, .exit] ∧
    x ∈ l ∧ x.kind = .exit ∧ Exact 1 1 10 30000 1 ⟨0, 0, 0, false⟩ ⟨0, 1, 0, false⟩ ⟨0, 0, 0, false⟩ pt x := by
  have near : InRange ((30000 : ℝ) * 1) (toTuple 1 ⟨0, 0, 0, false⟩) (toTuple 1 ⟨0, 0, 0, false⟩) := by
    unfold InRange; rw [dist_self]; norm_num
  have far : ¬ InRange ((30000 : ℝ) * 1) (toTuple 1 ⟨0, 0, 0, false⟩) (toTuple 1 ⟨0, 1, 0, false⟩) := by
    unfold InRange
    rw [not_le]
    have := degree_apart
    simpa [toTuple, Geo.toDegrees] using this
  obtain ⟨ans, h1, h2, h3, -⟩ := c82_equator (k := 1) (ka := 1) (v := 10) (r := 30000) (w := 1) (s := ⟨0, 0, 0, false⟩) (f := ⟨0, 1, 0, false⟩) (c := ⟨0, 0, 0, false⟩)
    one_pos one_ne_zero (by norm_num) (by norm_num) rfl rfl rfl (Or.inl rfl) degree_long (by unfold Wgs.f deg Geo.toDegrees; norm_num)
  have hk := h3 near far
  cases ans with
  | bad => cases hk
  | hits l pt =>
    obtain ⟨-, hx⟩ := h2 l pt rfl
    have hk' : l.map (·.kind) = [.startInside, .exit] := hk
    obtain ⟨x, hx1, hx2⟩ := List.mem_map.1 (show Crossing.Kind.exit ∈ l.map (·.kind) by rw [hk']; simp)
    exact ⟨l, pt, x, h1, hk', hx1, hx2, hx x hx1⟩

/-- coming back along the equator, westward: one ENTER -/
example : ∃ l pt x, subdivide 1 1 ⟨0, 1, 0, false⟩ ⟨0, 0, 0, false⟩ 10 ⟨0, 0, 0, false⟩ 30000 = .ok (.hits l pt) ∧ l.map (·.kind) = [.enter, .endInside] ∧
    x ∈ l ∧ x.kind = .enter ∧ Exact 1 1 10 30000 (-1) ⟨0, 1, 0, false⟩ ⟨0, 0, 0, false⟩ ⟨0, 0, 0, false⟩ pt x := by
  have near : InRange ((30000 : ℝ) * 1) (toTuple 1 ⟨0, 0, 0, false⟩) (toTuple 1 ⟨0, 0, 0, false⟩) := by
    unfold InRange; rw [dist_self]; norm_num
  have far : ¬ InRange ((30000 : ℝ) * 1) (toTuple 1 ⟨0, 0, 0, false⟩) (toTuple 1 ⟨0, 1, 0, false⟩) := by
    unfold InRange
    rw [not_le]
    have := degree_apart
    simpa [toTuple, Geo.toDegrees] using this
  obtain ⟨ans, h1, h2, -, h3⟩ := c82_equator (k := 1) (ka := 1) (v := 10) (r := 30000) (w := -1) (s := ⟨0, 1, 0, false⟩) (f := ⟨0, 0, 0, false⟩) (c := ⟨0, 0, 0, false⟩)
    one_pos one_ne_zero (by norm_num) (by norm_num) rfl rfl rfl (Or.inr rfl) degree_back (by unfold Wgs.f deg Geo.toDegrees; norm_num)
  have hk := h3 far near
  cases ans with
  | bad => cases hk
  | hits l pt =>
    obtain ⟨-, hx⟩ := h2 l pt rfl
    have hk' : l.map (·.kind) = [.enter, .endInside] := hk
    obtain ⟨x, hx1, hx2⟩ := List.mem_map.1 (show Crossing.Kind.enter ∈ l.map (·.kind) by rw [hk']; simp)
    exact ⟨l, pt, x, h1, hk', hx1, hx2, hx x hx1⟩

end Verif.Subdiv.Wgs84
