import Verif.Geod.Direct

/-!
# C71, destinations
-/

namespace Verif.Geod

open Real
open Verif.Wgs
open Verif.Globe (LL E3 Err radians degrees atan2 pmod vec heading ext3 rad_eq rad_deg atan2_cos_sin atan2_polar radians_pmod)

theorem C_bd' {q : ℝ} (hq : 0 ≤ q) (hq' : q ≤ 1) : bigC q ≤ f * 0.251 * q := by
  unfold bigC
  have hf := f_pos
  have h1 : f / 16 * (4 + f * (4 - 3 * q)) ≤ f * 0.251 := by
    have h2 : f * (4 - 3 * q) ≤ 0.016 := by
      have : f ≤ 0.004 := by unfold f; norm_num
      nlinarith
    have : f / 16 * (4 + f * (4 - 3 * q)) ≤ f / 16 * 4.016 := mul_le_mul_of_nonneg_left (by linarith) (by positivity)
    linarith
  calc f / 16 * q * (4 + f * (4 - 3 * q)) = (f / 16 * (4 + f * (4 - 3 * q))) * q := by ring
    _ ≤ f * 0.251 * q := mul_le_mul_of_nonneg_right h1 hq

theorem cubic {S : ℝ} (h : |S| ≤ 1) : |S| * (1 - S ^ 2) ≤ 0.385 := by
  rw [← sq_abs]
  have h0 := abs_nonneg S
  set x := |S|
  nlinarith [mul_nonneg (by linarith : (0 : ℝ) ≤ x + 1.154) (sq_nonneg (x - 0.577))]

theorem Z_bd {q : ℝ} (h0 : 0 ≤ q) (h1 : q ≤ 1) (x1 T : ℝ) :
    |cos (2 * x1 + T) + bigC q * cos T * (-1 + 2 * cos (2 * x1 + T) ^ 2)| ≤ 1.001 := by
  have hC := C_bd h0 h1
  have hf : f * 0.251 ≤ 0.001 := by unfold f; norm_num
  have e : -1 + 2 * cos (2 * x1 + T) ^ 2 = cos (2 * (2 * x1 + T)) := by rw [cos_two_mul]; ring
  rw [e]
  have b1 := abs_cos_le_one (2 * x1 + T)
  have b2 : |bigC q * cos T * cos (2 * (2 * x1 + T))| ≤ 0.001 := by
    rw [abs_mul, abs_mul, abs_of_nonneg hC.1]
    have h1 := abs_cos_le_one T
    have h2 := abs_cos_le_one (2 * (2 * x1 + T))
    calc bigC q * |cos T| * |cos (2 * (2 * x1 + T))| ≤ bigC q * 1 * 1 :=
          mul_le_mul (mul_le_mul_of_nonneg_left h1 hC.1) h2 (abs_nonneg _) (by rw [mul_one]; exact hC.1)
      _ ≤ 0.001 := by linarith
  refine (abs_add_le _ _).trans ((add_le_add b1 b2).trans ?_)
  norm_num

/-- The error of the longitude. -/
theorem bug_bd {S : ℝ} (hS : |S| ≤ 1) (x1 T new : ℝ) :
    |S * bug S (1 - S ^ 2) x1 T new - S * corr (1 - S ^ 2) x1 T| ≤ f * |new - T| + f ^ 2 * 0.1936 := by
  have hq0 : 0 ≤ 1 - S ^ 2 := by rw [← sq_abs]; nlinarith [abs_nonneg S]
  have hq1 : 1 - S ^ 2 ≤ 1 := by nlinarith [sq_nonneg S]
  have hC := C_bd hq0 hq1
  have hC' := C_bd' hq0 hq1
  have hZ := Z_bd hq0 hq1 x1 T
  have hf := f_pos
  have hcub := cubic hS
  have hf1 : f * 0.251 ≤ 1 := by unfold f; norm_num
  set C := bigC (1 - S ^ 2) with hCd
  set Z := cos (2 * x1 + T) + C * cos T * (-1 + 2 * cos (2 * x1 + T) ^ 2) with hZd
  have e : S * bug S (1 - S ^ 2) x1 T new - S * corr (1 - S ^ 2) x1 T = (1 - C) * (f * (S * (new - T) + C * S * (S - sin T) * Z)) := by
    unfold bug corr
    rw [← hCd, ← hZd]; ring
  rw [e, abs_mul, abs_of_nonneg (by linarith : 0 ≤ 1 - C), abs_mul, abs_of_pos hf]
  have b1 : |S * (new - T)| ≤ |new - T| := by
    rw [abs_mul]; exact mul_le_of_le_one_left (abs_nonneg _) hS
  have b2 : |C * S * (S - sin T) * Z| ≤ f * 0.1936 := by
    rw [abs_mul, abs_mul, abs_mul, abs_of_nonneg hC.1]
    have h1 : C * |S| ≤ f * 0.251 * 0.385 := by
      calc C * |S| ≤ f * 0.251 * (1 - S ^ 2) * |S| := mul_le_mul_of_nonneg_right hC' (abs_nonneg _)
        _ = f * 0.251 * (|S| * (1 - S ^ 2)) := by ring
        _ ≤ _ := mul_le_mul_of_nonneg_left hcub (by positivity)
    have h2 : |S - sin T| ≤ 2 := (abs_sub _ _).trans (by have := abs_sin_le_one T; linarith)
    calc C * |S| * |S - sin T| * |Z| ≤ f * 0.251 * 0.385 * 2 * 1.001 := by gcongr
      _ ≤ f * 0.1936 := by norm_num; linarith
  have hsum : |S * (new - T) + C * S * (S - sin T) * Z| ≤ |new - T| + f * 0.1936 := (abs_add_le _ _).trans (add_le_add b1 b2)
  have h3 : f * |S * (new - T) + C * S * (S - sin T) * Z| ≤ f * |new - T| + f ^ 2 * 0.1936 := by
    have := mul_le_mul_of_nonneg_left hsum hf.le
    linarith
  have h4 : 0 ≤ f * |S * (new - T) + C * S * (S - sin T) * Z| := by positivity
  have : (1 - C) * (f * |S * (new - T) + C * S * (S - sin T) * Z|) ≤ 1 * (f * |S * (new - T) + C * S * (S - sin T) * Z|) :=
    mul_le_mul_of_nonneg_right (by linarith [hC.1]) h4
  linarith

/-- The error of the longitude where the wrong factor does not matter. -/
theorem bug_bd' {S : ℝ} (hS : |S| ≤ 1) (h : S * bigC (1 - S ^ 2) = 0) (x1 T new : ℝ) :
    |S * bug S (1 - S ^ 2) x1 T new - S * corr (1 - S ^ 2) x1 T| ≤ f * |new - T| := by
  have hq0 : 0 ≤ 1 - S ^ 2 := by rw [← sq_abs]; nlinarith [abs_nonneg S]
  have hq1 : 1 - S ^ 2 ≤ 1 := by nlinarith [sq_nonneg S]
  have hC := C_bd hq0 hq1
  have hf := f_pos
  have hf1 : f * 0.251 ≤ 1 := by unfold f; norm_num
  set C := bigC (1 - S ^ 2) with hCd
  set Z := cos (2 * x1 + T) + C * cos T * (-1 + 2 * cos (2 * x1 + T) ^ 2) with hZd
  have e : S * bug S (1 - S ^ 2) x1 T new - S * corr (1 - S ^ 2) x1 T = (1 - C) * (f * (S * (new - T))) := by
    unfold bug corr
    rw [← hCd, ← hZd]; linear_combination ((1 - C) * f * (S - sin T) * Z) * h
  rw [e, abs_mul, abs_of_nonneg (by linarith : 0 ≤ 1 - C), abs_mul, abs_of_pos hf, abs_mul]
  have b1 : |S| * |new - T| ≤ |new - T| := mul_le_of_le_one_left (abs_nonneg _) hS
  have h3 := mul_le_mul_of_nonneg_left b1 hf.le
  have h4 : 0 ≤ f * (|S| * |new - T|) := by positivity
  nlinarith [hC.1]

/-- What is known of a destination. -/
theorem direct_core {k tol : ℝ} {n : ℕ} {p r : LL} {β d : ℝ} (hp : Lat p) (ht : 0 < tol) (h : pointFrom k tol n p β d = .ok r) :
    ∃ s y σ x1 new, (s = length (lineSpeed p β) σ ∧ y = line p β σ) ∧ Lat r ∧ y 2 = ground r 2 ∧ |s - d * k| ≤ 1e-7 + 5e-12 * |d * k| + 6.4e6 * tol ∧
      |σ| ≤ |d * k| / b + 0.002 + tol ∧ |new - σ| < tol ∧
      dist y (ground r) ≤ a * (|cos (reduced p.1) * sin (radians β) * bug (cos (reduced p.1) * sin (radians β)) (1 - (cos (reduced p.1) * sin (radians β)) ^ 2) x1 σ new -
        cos (reduced p.1) * sin (radians β) * corr (1 - (cos (reduced p.1) * sin (radians β)) ^ 2) x1 σ| + 4e-11 * |σ|) := by
  have ha := a_pos
  have hb := b_pos
  have A := ang (reduced p.1) (radians β)
  have N := start_node hp (radians β)
  unfold pointFrom at h
  simp only at h
  obtain ⟨e1, e2⟩ := start_sin p.1 (radians β) hp
  rw [e1, e2] at h
  set x1 := (start p.1 (radians β)).2.2
  have hy := uSq_bd A.q_bd.1 A.q_bd.2
  have hlenb := len_bd N A
  have hdel := delta_bd N A
  set S := cos (reduced p.1) * sin (radians β) with hS
  have hA := A_bd hy.1 hy.2
  have hB := B_bd hy.1 hy.2
  set y := uSq (1 - S ^ 2) with hyd
  set σ0 := d * k / (b * bigA y) with hσ0
  cases hl : dirLoop σ0 (bigB y) x1 tol n σ0 with
  | error e => rw [hl] at h; cases h
  | ok w =>
    obtain ⟨σ, new⟩ := w
    rw [hl] at h
    simp only at h
    injection h with h
    obtain ⟨hn, hc⟩ := dirLoop_ok hl
    obtain ⟨hL, h2, hd⟩ := arrive_dist A rfl rfl p x1 σ new
    rw [h] at hL hd h2
    have hbA : 0 < b * bigA y := mul_pos hb (by linarith [hA.1])
    have hbA0 : b ≤ b * bigA y := le_mul_of_one_le_right hb.le hA.1
    have hds := deltaSigma_small hB.1 hB.2 x1 σ
    have hσ0' : |σ0| ≤ |d * k| / b := by
      rw [hσ0, abs_div, abs_of_pos hbA]
      exact div_le_div_of_nonneg_left (abs_nonneg _) hb hbA0
    have hσ : |σ| ≤ |d * k| / b + 0.002 + tol := by
      have e : σ = σ0 + deltaSigma (bigB y) (sin σ) (cos σ) (cos (2 * x1 + σ)) + (σ - new) := by rw [hn]; ring
      rw [e]
      exact (abs_add_three _ _ _).trans (add_le_add (add_le_add hσ0' hds) hc.le)
    refine ⟨_, _, σ, x1, new, ⟨rfl, rfl⟩, hL, h2, ?_, hσ, by rw [abs_sub_comm]; exact hc, ?_⟩
    · change |length (fun t => a * w (cos (reduced p.1)) (sin (reduced p.1)) (cos (radians β)) t) σ - d * k| ≤ _
      have h1 := hlenb σ
      have e : b * bigA y * (σ - deltaSigma (bigB y) (sin σ) (cos σ) (cos (2 * x1 + σ))) - d * k = b * bigA y * (σ - new) := by
        have hdk : σ0 * (b * bigA y) = d * k := div_mul_cancel₀ _ hbA.ne'
        rw [hn]; linear_combination hdk
      have h3 : |b * bigA y * (σ - deltaSigma (bigB y) (sin σ) (cos σ) (cos (2 * x1 + σ))) - d * k| ≤ 6369467 * tol := by
        rw [e, abs_mul, abs_of_pos hbA]
        have : b * bigA y ≤ 6369467 := by
          have hb' : b ≤ 6356753 := by unfold b a f; norm_num
          calc b * bigA y ≤ 6356753 * 1.002 := mul_le_mul hb' hA.2 (by linarith [hA.1]) (by norm_num)
            _ ≤ _ := by norm_num
        exact mul_le_mul this hc.le (abs_nonneg _) (by norm_num)
      have h4 : b * 5e-12 * |σ| ≤ 5e-12 * |d * k| + 1e-7 + tol := by
        have hb' : b ≤ 6356753 := by unfold b a f; norm_num
        have : b * |σ| ≤ |d * k| + b * 0.002 + b * tol := by
          have := mul_le_mul_of_nonneg_left hσ hb.le
          have e : b * (|d * k| / b + 0.002 + tol) = |d * k| + b * 0.002 + b * tol := by field_simp
          rwa [e] at this
        have h5 : b * tol ≤ 6356753 * tol := mul_le_mul_of_nonneg_right hb' ht.le
        norm_num at this ⊢
        linarith
      rw [abs_le] at h1 h3 ⊢
      norm_num at h4 ⊢
      constructor <;> linarith [h1.1, h1.2, h3.1, h3.2]
    · refine hd.trans (mul_le_mul_of_nonneg_left ?_ ha.le)
      have e : S * bug S (1 - S ^ 2) x1 σ new - delta (cos (reduced p.1)) (sin (reduced p.1)) (cos (radians β)) (sin (radians β)) σ =
        (S * bug S (1 - S ^ 2) x1 σ new - S * corr (1 - S ^ 2) x1 σ) +
        (S * corr (1 - S ^ 2) x1 σ - delta (cos (reduced p.1)) (sin (reduced p.1)) (cos (radians β)) (sin (radians β)) σ) := by ring
      rw [e]
      exact (abs_add_le _ _).trans (add_le_add le_rfl (hdel σ))

/-- The share of the error that comes from the series. -/
theorem share {x σ tol : ℝ} (hx : 0 ≤ x) (ht : 0 < tol) (h : |σ| ≤ x / b + 0.002 + tol) : a * (4e-11 * |σ|) ≤ 1e-6 + 5e-11 * x + tol := by
  have ha : a = 6378137 := rfl
  have hb : 6356752 ≤ b := by unfold b a f; norm_num
  have h1 : x / b ≤ x / 6356752 := div_le_div_of_nonneg_left hx (by norm_num) hb
  rw [ha]
  norm_num at h ⊢
  linarith

/-- **C71.** A destination lies on the parallel on which the geodesic with the given first direction and length (to a tenth of a micrometre
and the tolerance) ends, and is less than fourteen metres from that end. -/
theorem c71_direct {k tol : ℝ} {n : ℕ} {p r : LL} {β d : ℝ} (hp : Lat p) (ht : 0 < tol) (h : pointFrom k tol n p β d = .ok r) :
    ∃ s y, Leads (ground p) (heading p β) s y ∧ |s - d * k| ≤ 1e-7 + 5e-12 * |d * k| + 6.4e6 * tol ∧ Lat r ∧ y 2 = ground r 2 ∧
      dist y (ground r) ≤ 14 + 5e-11 * |d * k| + 22000 * tol := by
  obtain ⟨s, y, σ, x1, new, ⟨hs', hy'⟩, hr, h2, hs, hσ, hn, hd⟩ := direct_core hp ht h
  refine ⟨s, y, hs' ▸ hy' ▸ leads hp β σ, hs, hr, h2, hd.trans ?_⟩
  have hb := bug_bd (ang (reduced p.1) (radians β)).sin_bd x1 σ new
  have hsh := share (abs_nonneg (d * k)) ht hσ
  have ha := a_pos
  have hf := f_pos
  have h1 := mul_le_mul_of_nonneg_left hb ha.le
  have h3 : a * (f * |new - σ| + f ^ 2 * 0.1936) ≤ 21500 * tol + 13.9 := by
    have haf : a * f ≤ 21500 := by unfold a f; norm_num
    have haf2 : a * (f ^ 2 * 0.1936) ≤ 13.9 := by unfold a f; norm_num
    have : a * f * |new - σ| ≤ 21500 * tol := mul_le_mul haf hn.le (abs_nonneg _) (by norm_num)
    linarith
  norm_num at hsh h3 h1 ⊢
  linarith

/-- **C71, the full statement, where it holds.** Due north or south, from a pole, and along the equator the destination is right: it is less
than two micrometres (and the tolerance) from the end of the geodesic. Elsewhere the factor `sin_alpha` in place of `sin_sigma` (wgs84.py
239-241) moves it along its parallel, see `c71_zero`. -/
theorem c71_direct_partial {k tol : ℝ} {n : ℕ} {p r : LL} {β d : ℝ} (hp : Lat p) (ht : 0 < tol) (h : pointFrom k tol n p β d = .ok r)
    (hg : sin (radians β) = 0 ∨ p.1 = 90 ∨ p.1 = -90 ∨ (p.1 = 0 ∧ cos (radians β) = 0)) :
    ∃ s y, Leads (ground p) (heading p β) s y ∧ |s - d * k| ≤ 1e-7 + 5e-12 * |d * k| + 6.4e6 * tol ∧ Lat r ∧ y 2 = ground r 2 ∧
      dist y (ground r) ≤ 1e-6 + 5e-11 * |d * k| + 22000 * tol := by
  obtain ⟨s, y, σ, x1, new, ⟨hs', hy'⟩, hr, h2, hs, hσ, hn, hd⟩ := direct_core hp ht h
  refine ⟨s, y, hs' ▸ hy' ▸ leads hp β σ, hs, hr, h2, hd.trans ?_⟩
  have hz : cos (reduced p.1) * sin (radians β) * bigC (1 - (cos (reduced p.1) * sin (radians β)) ^ 2) = 0 := by
    have hpole : ∀ x : ℝ, x = 90 ∨ x = -90 → cos (radians x) = 0 := by
      rintro x (rfl | rfl)
      · rw [show radians 90 = π / 2 by unfold radians; ring, cos_pi_div_two]
      · rw [show radians (-90) = -(π / 2) by unfold radians; ring, cos_neg, cos_pi_div_two]
    rcases hg with h | h | h | ⟨h, h'⟩
    · rw [h]; simp
    · rw [red_cos hp, hpole _ (Or.inl h)]; simp
    · rw [red_cos hp, hpole _ (Or.inr h)]; simp
    · have hr0 : reduced p.1 = 0 := by rw [h]; unfold reduced; simp [radians]
      have : sin (radians β) ^ 2 = 1 := by have := sin_sq_add_cos_sq (radians β); rw [h'] at this; linarith
      rw [hr0, cos_zero, one_mul, this]; simp [bigC]
  have hb := bug_bd' (ang (reduced p.1) (radians β)).sin_bd hz x1 σ new
  have hsh := share (abs_nonneg (d * k)) ht hσ
  have ha := a_pos
  have h1 := mul_le_mul_of_nonneg_left hb ha.le
  have h3 : a * (f * |new - σ|) ≤ 21500 * tol := by
    have haf : a * f ≤ 21500 := by unfold a f; norm_num
    have : a * f * |new - σ| ≤ 21500 * tol := mul_le_mul haf hn.le (abs_nonneg _) (by norm_num)
    linarith
  norm_num at hsh h3 h1 ⊢
  linarith

/-- **C71.** A destination is always found: five iterations are enough for the usual tolerance. -/
theorem c71_found {tol : ℝ} {n : ℕ} (ht : 1e-12 ≤ tol) (hn : 5 ≤ n) (k : ℝ) {p : LL} (hp : Lat p) (β d : ℝ) :
    ∃ r, pointFrom k tol n p β d = .ok r ∧ Lat r := by
  have A := ang (reduced p.1) (radians β)
  have hy := uSq_bd A.q_bd.1 A.q_bd.2
  have hB := B_bd hy.1 hy.2
  obtain ⟨m, rfl⟩ : ∃ m, n = m + 1 := ⟨n - 1, by omega⟩
  obtain ⟨e1, e2⟩ := start_sin p.1 (radians β) hp
  suffices H : ∃ r, pointFrom k tol (m + 1) p β d = .ok r by
    obtain ⟨r, hr⟩ := H
    obtain ⟨_, _, _, _, h, _⟩ := c71_direct hp (lt_of_lt_of_le (by norm_num) ht) hr
    exact ⟨r, hr, h⟩
  unfold pointFrom
  simp only
  rw [e1, e2]
  set x1 := (start p.1 (radians β)).2.2
  set σ0 := d * k / (b * bigA (uSq (1 - (cos (reduced p.1) * sin (radians β)) ^ 2)))
  set B := bigB (uSq (1 - (cos (reduced p.1) * sin (radians β)) ^ 2))
  obtain ⟨r, hr⟩ := dirLoop_total (σ0 := σ0) (σ1 := x1) (tol := tol) hB.1 hB.2 m σ0 (by
    have e : σ0 - (σ0 + deltaSigma B (sin σ0) (cos σ0) (cos (2 * x1 + σ0))) = -deltaSigma B (sin σ0) (cos σ0) (cos (2 * x1 + σ0)) := by ring
    rw [e, abs_neg]
    have h1 := deltaSigma_small hB.1 hB.2 x1 σ0
    have h2 : (0.002 : ℝ) ^ m ≤ 0.002 ^ 4 := pow_le_pow_of_le_one (by norm_num) (by norm_num) (by omega)
    have : (0.002 : ℝ) ^ m * |deltaSigma B (sin σ0) (cos σ0) (cos (2 * x1 + σ0))| ≤ 0.002 ^ 4 * 0.002 := mul_le_mul h2 h1 (abs_nonneg _) (by norm_num)
    norm_num at this ht ⊢
    linarith)
  rw [hr]
  exact ⟨_, rfl⟩

example : ∃ r, pointFrom 1852 1e-12 200 (33, -84) 40 100 = .ok r ∧ Lat r :=
  c71_found le_rfl (by norm_num) 1852 ⟨by norm_num, by norm_num⟩ 40 100

end Verif.Geod
