import Verif.Geod.InvProps
import Mathlib.Analysis.SpecialFunctions.Trigonometric.InverseDeriv
import Mathlib.Analysis.SpecialFunctions.Trigonometric.Bounds

/-!
# The loop of `distance_and_bearing` converges
-/

namespace Verif.Geod

open Real
open Verif.Wgs
open Verif.Globe (LL E3 radians degrees atan2 pmod vec heading ext3 rad_eq)

/-- The correction of the longitude, without the division that the code guards. -/
noncomputable def phi (z A K S σ : ℝ) : ℝ :=
  (1 - (1 - A ^ 2) * (f / 16 * (4 + f * (4 - 3 * (1 - A ^ 2))))) * f * A *
    (σ + S * ((f / 16 * (4 + f * (4 - 3 * (1 - A ^ 2)))) * ((1 - A ^ 2) * K - 2 * z) +
      K * (-((1 - A ^ 2) * (f / 16 * (4 + f * (4 - 3 * (1 - A ^ 2))))) ^ 2 +
        2 * (f / 16 * (4 + f * (4 - 3 * (1 - A ^ 2)))) ^ 2 * ((1 - A ^ 2) * K - 2 * z) ^ 2)))

noncomputable def kk (u1 u2 l : ℝ) : ℝ := sin u1 * sin u2 + cos u1 * cos u2 * cos l
noncomputable def ss (u1 u2 l : ℝ) : ℝ := √(1 - kk u1 u2 l ^ 2)
noncomputable def aa (u1 u2 l : ℝ) : ℝ := cos u1 * cos u2 * sin l / ss u1 u2 l
noncomputable def Phi (u1 u2 l : ℝ) : ℝ := phi (sin u1 * sin u2) (aa u1 u2 l) (kk u1 u2 l) (ss u1 u2 l) (arccos (kk u1 u2 l))

theorem kk_le (u1 u2 l : ℝ) : kk u1 u2 l ^ 2 ≤ 1 := by
  have := sides u1 u2 l
  unfold kk
  nlinarith [sq_nonneg (cos u2 * sin l), sq_nonneg (cos u1 * sin u2 - sin u1 * cos u2 * cos l)]

theorem step_phi {u1 u2 l : ℝ} (h : kk u1 u2 l ^ 2 < 1) (L : ℝ) : ∃ it, invStep u1 u2 L l = .ok it ∧ it.next = L + Phi u1 u2 l ∧
    aa u1 u2 l ^ 2 ≤ 1 := by
  have hS : √((cos u2 * sin l) ^ 2 + (cos u1 * sin u2 - sin u1 * cos u2 * cos l) ^ 2) = ss u1 u2 l := by
    unfold ss; congr 1; have := sides u1 u2 l; unfold kk; linarith
  have hpos : 0 < ss u1 u2 l := sqrt_pos.mpr (by linarith)
  have hex : ∃ it, invStep u1 u2 L l = .ok it := by
    unfold invStep
    simp only [hS, if_neg hpos.ne']
    exact ⟨_, rfl⟩
  obtain ⟨it, hit⟩ := hex
  obtain ⟨ca, sa, x1, σ, G⟩ := invStep_good hit
  have hK : kk u1 u2 l = cos σ := G.cosS
  have hSσ : ss u1 u2 l = sin σ := by
    unfold ss; rw [hK, show 1 - cos σ ^ 2 = sin σ ^ 2 by linarith [sin_sq_add_cos_sq σ], sqrt_sq G.pos.le]
  have hA : aa u1 u2 l = cos u1 * sa := by
    unfold aa; rw [hSσ, mul_assoc, G.east]; have := G.pos.ne'; field_simp
  have hσ : arccos (kk u1 u2 l) = σ := by rw [hK, arccos_cos G.lo G.hi]
  refine ⟨it, hit, ?_, ?_⟩
  · rw [G.next]
    unfold Phi
    rw [hA, hσ, hSσ, hK]
    have hq := G.A.q_bd.1
    have hr := sq_sqrt hq
    have hmu : (1 - (cos u1 * sa) ^ 2) * cos (2 * x1 + σ) = (1 - (cos u1 * sa) ^ 2) * cos σ - 2 * (sin u1 * sin u2) := by
      have h2 : sin u2 = √(1 - (cos u1 * sa) ^ 2) * sin (x1 + σ) := by rw [← G.N.g3]; exact G.end.2.2.symm
      have h1 : 2 * (sin u1 * sin u2) = (1 - (cos u1 * sa) ^ 2) * (2 * sin x1 * sin (x1 + σ)) := by
        rw [h2]
        nth_rw 1 [G.N.s]
        linear_combination (2 * sin x1 * sin (x1 + σ)) * hr
      rw [h1, show 2 * x1 + σ = (x1 + σ) + x1 by ring, cos_add, show cos σ = cos ((x1 + σ) - x1) by congr 1; ring, cos_sub]
      ring
    unfold phi corr bigC
    rw [← hmu]
    ring
  · rw [hA]; linarith [G.A.q_bd.1]

/-! ### The derivative -/

theorem abs_mul_le' {x y a b : ℝ} (hx : |x| ≤ a) (hy : |y| ≤ b) : |x * y| ≤ a * b := by
  rw [abs_mul]; exact mul_le_mul hx hy (abs_nonneg _) ((abs_nonneg _).trans hx)

theorem abs_add_le' {x y a b : ℝ} (hx : |x| ≤ a) (hy : |y| ≤ b) : |x + y| ≤ a + b := (abs_add_le _ _).trans (add_le_add hx hy)

theorem abs_neg_le {x a : ℝ} (hx : |x| ≤ a) : |-x| ≤ a := by rwa [abs_neg]

/-- The sizes of the parts. -/
theorem parts_bd {A K S z X : ℝ} (hS : 0 < S) (bA : |A| ≤ 1) (bK : |K| ≤ 1) (bS : S ≤ 1) (bz : |z| ≤ 1) (bX : |X| ≤ 2)
    {q ct C mu Q c Cn M R N : ℝ} (hq : q = 1 - A ^ 2) (hct : ct = f / 16 * (4 + f * (4 - 3 * q))) (hC : C = q * ct) (hmu : mu = q * K - 2 * z)
    (hQ : Q = -(2 * A * X)) (hc : c = f / 16 * (f * (-3 * Q))) (hCn : Cn = Q * ct + q * c) (hM : M = Q * K - q * A * S ^ 2)
    (hR : R = ct * mu + K * (-C ^ 2 + 2 * ct ^ 2 * mu ^ 2))
    (hN : N = c * mu + ct * M - A * S ^ 2 * (-C ^ 2 + 2 * ct ^ 2 * mu ^ 2) + K * (-(2 * C * Cn) + 4 * ct * c * mu ^ 2 + 4 * ct ^ 2 * mu * M)) :
    0 ≤ C ∧ C ≤ 0.00085 ∧ |Cn| ≤ 0.0035 ∧ |R| ≤ 0.003 ∧ |N| ≤ 0.005 := by
  have hf := f_pos
  have hf1 : f ≤ 0.00336 := by unfold f; norm_num
  have hA2 : A ^ 2 ≤ 1 := by rw [← sq_abs]; nlinarith [abs_nonneg A]
  have q0 : 0 ≤ q := by rw [hq]; linarith
  have q1 : q ≤ 1 := by rw [hq]; nlinarith [sq_nonneg A]
  have bq : |q| ≤ 1 := by rw [abs_of_nonneg q0]; exact q1
  have ct0 : 0 ≤ ct := by
    rw [hct]; have : 0 ≤ 4 - 3 * q := by linarith
    positivity
  have ct1 : ct ≤ 0.00085 := by
    rw [hct]
    have h1 : f * (4 - 3 * q) ≤ 0.00336 * 4 := mul_le_mul hf1 (by linarith) (by linarith) (by norm_num)
    have : f / 16 * (4 + f * (4 - 3 * q)) ≤ 0.00336 / 16 * (4 + 0.00336 * 4) :=
      mul_le_mul (by linarith) (by linarith) (by have : 0 ≤ f * (4 - 3 * q) := mul_nonneg hf.le (by linarith); linarith) (by norm_num)
    refine this.trans ?_
    norm_num
  have bct : |ct| ≤ 0.00085 := by rw [abs_of_nonneg ct0]; exact ct1
  have C0 : 0 ≤ C := by rw [hC]; exact mul_nonneg q0 ct0
  have C1 : C ≤ 0.00085 := by
    rw [hC]; calc q * ct ≤ 1 * 0.00085 := mul_le_mul q1 ct1 ct0 (by norm_num)
      _ = _ := by norm_num
  have bC : |C| ≤ 0.00085 := by rw [abs_of_nonneg C0]; exact C1
  have b2z : |2 * z| ≤ 2 := by rw [abs_mul, abs_two]; linarith
  have bmu : |mu| ≤ 3 := by
    rw [hmu]; have := abs_add_le' (abs_mul_le' bq bK) (abs_neg_le b2z)
    rw [← sub_eq_add_neg] at this; refine this.trans ?_; norm_num
  have bAX : |2 * A * X| ≤ 4 := by
    have := abs_mul_le' (abs_mul_le' (le_of_eq (abs_two (α := ℝ))) bA) bX
    refine this.trans ?_; norm_num
  have bQ : |Q| ≤ 4 := by rw [hQ]; exact abs_neg_le bAX
  have bc : |c| ≤ 0.00001 := by
    rw [hc, show f / 16 * (f * (-3 * Q)) = f * f * (-3 / 16 * Q) by ring]
    have h1 : |f * f| ≤ 0.00336 * 0.00336 := abs_mul_le' (by rw [abs_of_pos hf]; exact hf1) (by rw [abs_of_pos hf]; exact hf1)
    have h2 : |(-3 / 16 : ℝ)| ≤ 3 / 16 := by rw [abs_of_neg (by norm_num)]; norm_num
    refine (abs_mul_le' h1 (abs_mul_le' h2 bQ)).trans ?_
    norm_num
  have bCn : |Cn| ≤ 0.0035 := by
    rw [hCn]; refine (abs_add_le' (abs_mul_le' bQ bct) (abs_mul_le' bq bc)).trans ?_; norm_num
  have bS2 : |S ^ 2| ≤ 1 := by rw [abs_of_nonneg (by positivity)]; nlinarith
  have bM : |M| ≤ 5 := by
    rw [hM, sub_eq_add_neg]
    refine (abs_add_le' (abs_mul_le' bQ bK) (abs_neg_le (abs_mul_le' (abs_mul_le' bq bA) bS2))).trans ?_; norm_num
  have b2 : |(2 : ℝ)| ≤ 2 := le_of_eq abs_two
  have b4 : |(4 : ℝ)| ≤ 4 := le_of_eq (abs_of_pos (by norm_num))
  have bctsq : |ct ^ 2| ≤ 0.00085 * 0.00085 := by rw [sq]; exact abs_mul_le' bct bct
  have bmusq : |mu ^ 2| ≤ 9 := by rw [sq]; refine (abs_mul_le' bmu bmu).trans ?_; norm_num
  have bCsq : |-C ^ 2| ≤ 0.00085 * 0.00085 := by rw [sq]; exact abs_neg_le (abs_mul_le' bC bC)
  have bW : |-C ^ 2 + 2 * ct ^ 2 * mu ^ 2| ≤ 0.000015 := by
    refine (abs_add_le' bCsq (abs_mul_le' (abs_mul_le' b2 bctsq) bmusq)).trans ?_; norm_num
  refine ⟨C0, C1, bCn, ?_, ?_⟩
  · rw [hR]
    refine (abs_add_le' (abs_mul_le' bct bmu) (abs_mul_le' bK bW)).trans ?_; norm_num
  · rw [hN, sub_eq_add_neg]
    refine (abs_add_le' (abs_add_le' (abs_add_le' (abs_mul_le' bc bmu) (abs_mul_le' bct bM)) (abs_neg_le (abs_mul_le' (abs_mul_le' bA bS2) bW)))
      (abs_mul_le' bK (abs_add_le' (abs_add_le' (abs_neg_le (abs_mul_le' (abs_mul_le' b2 bC) bCn)) (abs_mul_le' (abs_mul_le' (abs_mul_le' b4 bct) bc) bmusq))
        (abs_mul_le' (abs_mul_le' (abs_mul_le' b4 bctsq) bmu) bM)))).trans ?_
    norm_num

/-- The derivative of the correction and its size. `X` is the derivative of `sin_alpha` times `sin_sigma`. -/
theorem phi_deriv {A K S σ : ℝ → ℝ} {l z X B : ℝ} (hS : 0 < S l) (hA : HasDerivAt A (X / S l) l) (hK : HasDerivAt K (-(A l * S l)) l)
    (hS' : HasDerivAt S (A l * K l) l) (hσ : HasDerivAt σ (A l) l) (bA : |A l| ≤ 1) (bK : |K l| ≤ 1) (bS : S l ≤ 1) (bz : |z| ≤ 1)
    (bX : |X| ≤ 2) (h0 : 0 ≤ σ l) (hB : σ l ≤ B * S l) : ∃ D, HasDerivAt (fun l => phi z (A l) (K l) (S l) (σ l)) D l ∧
      |D| ≤ f * (2.0035 * (B + 0.003) + 1.008) := by
  have hne := hS.ne'
  have hf := f_pos
  obtain ⟨q, hq⟩ : ∃ q, q = 1 - A l ^ 2 := ⟨_, rfl⟩
  obtain ⟨ct, hct⟩ : ∃ ct, ct = f / 16 * (4 + f * (4 - 3 * q)) := ⟨_, rfl⟩
  obtain ⟨C, hC⟩ : ∃ C, C = q * ct := ⟨_, rfl⟩
  obtain ⟨mu, hmu⟩ : ∃ mu, mu = q * K l - 2 * z := ⟨_, rfl⟩
  obtain ⟨Q, hQ⟩ : ∃ Q, Q = -(2 * A l * X) := ⟨_, rfl⟩
  obtain ⟨c, hc⟩ : ∃ c, c = f / 16 * (f * (-3 * Q)) := ⟨_, rfl⟩
  obtain ⟨Cn, hCn⟩ : ∃ Cn, Cn = Q * ct + q * c := ⟨_, rfl⟩
  obtain ⟨M, hM⟩ : ∃ M, M = Q * K l - q * A l * S l ^ 2 := ⟨_, rfl⟩
  obtain ⟨R, hR⟩ : ∃ R, R = ct * mu + K l * (-C ^ 2 + 2 * ct ^ 2 * mu ^ 2) := ⟨_, rfl⟩
  obtain ⟨N, hN⟩ : ∃ N, N = c * mu + ct * M - A l * S l ^ 2 * (-C ^ 2 + 2 * ct ^ 2 * mu ^ 2) + K l * (-(2 * C * Cn) + 4 * ct * c * mu ^ 2 + 4 * ct ^ 2 * mu * M) := ⟨_, rfl⟩
  obtain ⟨C0, C1, bCn, bR, bN⟩ := parts_bd hS bA bK bS bz bX hq hct hC hmu hQ hc hCn hM hR hN
  have dq : HasDerivAt (fun l => 1 - A l ^ 2) (Q / S l) l := by
    refine ((hA.pow 2).const_sub 1).congr_deriv ?_
    rw [hQ]; field_simp; norm_num; ring
  have dct : HasDerivAt (fun l => f / 16 * (4 + f * (4 - 3 * (1 - A l ^ 2)))) (c / S l) l := by
    refine ((((dq.const_mul 3).const_sub 4).const_mul f).const_add 4).const_mul (f / 16) |>.congr_deriv ?_
    rw [hc]; field_simp
  have dC : HasDerivAt (fun l => (1 - A l ^ 2) * (f / 16 * (4 + f * (4 - 3 * (1 - A l ^ 2))))) (Cn / S l) l := by
    refine (dq.mul dct).congr_deriv ?_
    rw [← hq, ← hct, hCn]; field_simp
  have dmu : HasDerivAt (fun l => (1 - A l ^ 2) * K l - 2 * z) (M / S l) l := by
    refine ((dq.mul hK).sub_const (2 * z)).congr_deriv ?_
    rw [← hq, hM]; field_simp; ring
  have dR : HasDerivAt (fun l => (f / 16 * (4 + f * (4 - 3 * (1 - A l ^ 2)))) * ((1 - A l ^ 2) * K l - 2 * z) +
      K l * (-((1 - A l ^ 2) * (f / 16 * (4 + f * (4 - 3 * (1 - A l ^ 2))))) ^ 2 +
        2 * (f / 16 * (4 + f * (4 - 3 * (1 - A l ^ 2)))) ^ 2 * ((1 - A l ^ 2) * K l - 2 * z) ^ 2)) (N / S l) l := by
    refine ((dct.mul dmu).add (hK.mul ((dC.pow 2).neg.add (((dct.pow 2).const_mul 2).mul (dmu.pow 2))))).congr_deriv ?_
    simp only [Pi.neg_apply, Pi.pow_apply, Pi.add_apply, Pi.mul_apply]
    rw [← hq, ← hct, ← hC, ← hmu, hN]; field_simp; ring
  have dT := hσ.add (hS'.mul dR)
  have dphi := (((dC.const_sub 1).mul_const f).mul hA).mul dT
  refine ⟨f * (-(Cn * A l * (σ l / S l + R)) + (1 - C) * (X * (σ l / S l + R) + A l * (A l + A l * K l * R + N))), dphi.congr_deriv ?_, ?_⟩
  · simp only [Pi.neg_apply, Pi.pow_apply, Pi.add_apply, Pi.mul_apply]
    rw [← hq, ← hct, ← hC, ← hmu, ← hR]; field_simp; ring
  · have hσS : |σ l / S l| ≤ B := by
      rw [abs_of_nonneg (by positivity), div_le_iff₀ hS]; exact hB
    have hB0 : 0 ≤ B := (abs_nonneg _).trans hσS
    have bt : |σ l / S l + R| ≤ B + 0.003 := abs_add_le' hσS bR
    have b1 : |-(Cn * A l * (σ l / S l + R))| ≤ 0.0035 * 1 * (B + 0.003) := abs_neg_le (abs_mul_le' (abs_mul_le' bCn bA) bt)
    have b2 : |X * (σ l / S l + R) + A l * (A l + A l * K l * R + N)| ≤ 2 * (B + 0.003) + 1 * (1 + 1 * 1 * 0.003 + 0.005) :=
      abs_add_le' (abs_mul_le' bX bt) (abs_mul_le' bA (abs_add_le' (abs_add_le' bA (abs_mul_le' (abs_mul_le' bA bK) bR)) bN))
    have b3 : |1 - C| ≤ 1 := by rw [abs_le]; constructor <;> norm_num at C1 ⊢ <;> linarith
    rw [abs_mul, abs_of_pos hf]
    refine mul_le_mul_of_nonneg_left ((abs_add_le' b1 (abs_mul_le' b3 b2)).trans ?_) hf.le
    norm_num
    linarith

/-! ### The iteration -/

variable {u1 u2 : ℝ}

theorem aa_mul {l : ℝ} (h : kk u1 u2 l ^ 2 < 1) : aa u1 u2 l * ss u1 u2 l = cos u1 * cos u2 * sin l := by
  have hpos : 0 < ss u1 u2 l := sqrt_pos.mpr (by linarith)
  unfold aa; field_simp

theorem hasDeriv_kk (l : ℝ) : HasDerivAt (kk u1 u2) (-(cos u1 * cos u2 * sin l)) l := by
  refine (((hasDerivAt_cos l).const_mul (cos u1 * cos u2)).const_add (sin u1 * sin u2)).congr_deriv ?_
  ring

theorem hasDeriv_ss {l : ℝ} (h : kk u1 u2 l ^ 2 < 1) : HasDerivAt (ss u1 u2) (aa u1 u2 l * kk u1 u2 l) l := by
  have hpos : 0 < ss u1 u2 l := sqrt_pos.mpr (by linarith)
  have h1 := (((hasDeriv_kk (u1 := u1) (u2 := u2) l).pow 2).const_sub 1).sqrt (by simp only [Pi.pow_apply]; linarith)
  refine h1.congr_deriv ?_
  have e : √(1 - (kk u1 u2 ^ 2) l) = ss u1 u2 l := rfl
  rw [e, ← aa_mul h]
  field_simp
  norm_num
  ring

theorem hasDeriv_aa {l : ℝ} (h : kk u1 u2 l ^ 2 < 1) :
    HasDerivAt (aa u1 u2) ((cos u1 * cos u2 * cos l - aa u1 u2 l ^ 2 * kk u1 u2 l) / ss u1 u2 l) l := by
  have hpos : 0 < ss u1 u2 l := sqrt_pos.mpr (by linarith)
  refine (((hasDerivAt_sin l).const_mul (cos u1 * cos u2)).div (hasDeriv_ss h) hpos.ne').congr_deriv ?_
  rw [← aa_mul h]
  field_simp

theorem hasDeriv_arc {l : ℝ} (h : kk u1 u2 l ^ 2 < 1) : HasDerivAt (fun l => arccos (kk u1 u2 l)) (aa u1 u2 l) l := by
  have hpos : 0 < ss u1 u2 l := sqrt_pos.mpr (by linarith)
  have h1 : kk u1 u2 l ≠ -1 := by intro e; rw [e] at h; norm_num at h
  have h2 : kk u1 u2 l ≠ 1 := by intro e; rw [e] at h; norm_num at h
  refine ((hasDerivAt_arccos h1 h2).comp l (hasDeriv_kk l)).congr_deriv ?_
  have e : √(1 - kk u1 u2 l ^ 2) = ss u1 u2 l := rfl
  rw [e]
  unfold aa
  field_simp

/-- How the angle compares with its sine. -/
theorem arc_ratio {K : ℝ} (h1 : K ^ 2 < 1) (h2 : 0.000665 ≤ 1 + K) : arccos K ≤ 122 * √(1 - K ^ 2) := by
  have hπ := pi_lt_d4
  by_cases h : 0 ≤ K
  · have h3 : arccos K ≤ π / 2 := arccos_le_pi_div_two.mpr h
    have h4 := mul_le_sin (arccos_nonneg K) h3
    rw [sin_arccos] at h4
    have h5 : arccos K = π / 2 * (2 / π * arccos K) := by field_simp
    rw [h5]
    have h6 : 0 ≤ √(1 - K ^ 2) := sqrt_nonneg _
    calc π / 2 * (2 / π * arccos K) ≤ π / 2 * √(1 - K ^ 2) := mul_le_mul_of_nonneg_left h4 (by positivity)
      _ ≤ 122 * √(1 - K ^ 2) := mul_le_mul_of_nonneg_right (by linarith) h6
  · push Not at h
    have h3 : 0.02578 ≤ √(1 - K ^ 2) := by
      apply le_sqrt_of_sq_le
      norm_num at h2 ⊢
      nlinarith
    have := arccos_le_pi K
    norm_num at h3 ⊢
    linarith

theorem Phi_deriv {l : ℝ} (h : kk u1 u2 l ^ 2 < 1) (h' : 0.000665 ≤ 1 + kk u1 u2 l) : ∃ D, HasDerivAt (Phi u1 u2) D l ∧ |D| ≤ 0.83 := by
  have hpos : 0 < ss u1 u2 l := sqrt_pos.mpr (by linarith)
  obtain ⟨_, _, _, hA⟩ := step_phi h 0
  have bA : |aa u1 u2 l| ≤ 1 := by rw [abs_le_one_iff_mul_self_le_one]; nlinarith
  have bK : |kk u1 u2 l| ≤ 1 := by rw [abs_le_one_iff_mul_self_le_one]; nlinarith
  have b1 := abs_cos_le_one u1
  have b2 := abs_cos_le_one u2
  have b3 := abs_cos_le_one l
  have b4 := abs_sin_le_one u1
  have b5 := abs_sin_le_one u2
  have bX : |cos u1 * cos u2 * cos l - aa u1 u2 l ^ 2 * kk u1 u2 l| ≤ 2 := by
    rw [sub_eq_add_neg]
    have hA' : |aa u1 u2 l ^ 2| ≤ 1 := by rw [abs_of_nonneg (sq_nonneg _)]; exact hA
    refine (abs_add_le' (abs_mul_le' (abs_mul_le' b1 b2) b3) (abs_neg_le (abs_mul_le' hA' bK))).trans ?_
    norm_num
  obtain ⟨D, hD, hb⟩ := phi_deriv (z := sin u1 * sin u2) (B := 122) hpos (hasDeriv_aa h) ((hasDeriv_kk l).congr_deriv (by rw [aa_mul h])) (hasDeriv_ss h) (hasDeriv_arc h) bA bK
    (sqrt_le_one.mpr (by nlinarith [sq_nonneg (kk u1 u2 l)])) (by have := abs_mul_le' b4 b5; linarith) bX (arccos_nonneg _) (arc_ratio h h')
  refine ⟨D, hD, hb.trans ?_⟩
  unfold f
  norm_num

theorem Phi_bds {l : ℝ} (h : kk u1 u2 l ^ 2 < 1) : |Phi u1 u2 l| ≤ 0.01055 ∧ (0 ≤ cos u1 * cos u2 * sin l → 0 ≤ Phi u1 u2 l) := by
  have hpos : 0 < ss u1 u2 l := sqrt_pos.mpr (by linarith)
  obtain ⟨_, _, _, hA⟩ := step_phi h 0
  have bA : |aa u1 u2 l| ≤ 1 := by rw [abs_le_one_iff_mul_self_le_one]; nlinarith
  have bK : |kk u1 u2 l| ≤ 1 := by rw [abs_le_one_iff_mul_self_le_one]; nlinarith
  have b4 := abs_sin_le_one u1
  have b5 := abs_sin_le_one u2
  have bz : |sin u1 * sin u2| ≤ 1 := by have := abs_mul_le' b4 b5; linarith
  have bS : ss u1 u2 l ≤ 1 := sqrt_le_one.mpr (by nlinarith [sq_nonneg (kk u1 u2 l)])
  have hf := f_pos
  obtain ⟨C0, C1, -, bR, -⟩ := parts_bd hpos bA bK bS bz (X := 0) (by norm_num) rfl rfl rfl rfl rfl rfl rfl rfl rfl rfl
  have hSσ : ss u1 u2 l ≤ arccos (kk u1 u2 l) := by
    have := sin_le (arccos_nonneg (kk u1 u2 l))
    rwa [sin_arccos] at this
  unfold Phi phi
  set C := (1 - aa u1 u2 l ^ 2) * (f / 16 * (4 + f * (4 - 3 * (1 - aa u1 u2 l ^ 2)))) with hC
  set ct := f / 16 * (4 + f * (4 - 3 * (1 - aa u1 u2 l ^ 2))) with hct
  set R := ct * ((1 - aa u1 u2 l ^ 2) * kk u1 u2 l - 2 * (sin u1 * sin u2)) +
    kk u1 u2 l * (-C ^ 2 + 2 * ct ^ 2 * ((1 - aa u1 u2 l ^ 2) * kk u1 u2 l - 2 * (sin u1 * sin u2)) ^ 2) with hR
  have hC1 : |1 - C| ≤ 1 := by rw [abs_le]; constructor <;> norm_num at C1 ⊢ <;> linarith
  constructor
  · have bσ : |arccos (kk u1 u2 l)| ≤ 3.1416 := by
      rw [abs_of_nonneg (arccos_nonneg _)]; exact (arccos_le_pi _).trans pi_lt_d4.le
    have bS' : |ss u1 u2 l| ≤ 1 := by rw [abs_of_pos hpos]; exact bS
    have bf : |f| ≤ 0.0033529 := by rw [abs_of_pos hf]; unfold f; norm_num
    refine (abs_mul_le' (abs_mul_le' (abs_mul_le' hC1 bf) bA) (abs_add_le' bσ (abs_mul_le' bS' bR))).trans ?_
    norm_num
  · intro hs
    have hA0 : 0 ≤ aa u1 u2 l := div_nonneg hs hpos.le
    have hR' := (abs_le.mp bR).1
    have hT : 0 ≤ arccos (kk u1 u2 l) + ss u1 u2 l * R := by
      have : ss u1 u2 l * (-0.003) ≤ ss u1 u2 l * R := mul_le_mul_of_nonneg_left hR' hpos.le
      norm_num at this
      linarith
    have : 0 ≤ 1 - C := by norm_num at C1 ⊢; linarith
    positivity

/-- A contraction of an interval into itself leads to convergence. -/
theorem loop_conv {L tol : ℝ} {I : Set ℝ} (hI : Convex ℝ I) (h : ∀ l ∈ I, kk u1 u2 l ^ 2 < 1 ∧ 0.000665 ≤ 1 + kk u1 u2 l)
    (hin : ∀ l ∈ I, L + Phi u1 u2 l ∈ I) (n : ℕ) {l : ℝ} (hl : l ∈ I) (hn : (0.83 : ℝ) ^ n * |L + Phi u1 u2 l - l| < tol) :
    ∃ it, invLoop u1 u2 L tol (n + 1) l = .ok it := by
  have lip : ∀ x ∈ I, ∀ y ∈ I, |Phi u1 u2 y - Phi u1 u2 x| ≤ 0.83 * |y - x| := by
    intro x hx y hy
    have hd : ∀ z ∈ I, HasDerivWithinAt (Phi u1 u2) (deriv (Phi u1 u2) z) I z := fun z hz => by
      obtain ⟨D, hD, -⟩ := Phi_deriv (h z hz).1 (h z hz).2
      rw [hD.deriv]; exact hD.hasDerivWithinAt
    have hb : ∀ z ∈ I, ‖deriv (Phi u1 u2) z‖ ≤ 0.83 := fun z hz => by
      obtain ⟨D, hD, hb⟩ := Phi_deriv (h z hz).1 (h z hz).2
      rw [hD.deriv]; exact hb
    exact hI.norm_image_sub_le_of_norm_hasDerivWithin_le hd hb hx hy
  induction n generalizing l with
  | zero =>
    obtain ⟨it, hit, hnext, -⟩ := step_phi (h l hl).1 L
    unfold invLoop
    rw [hit]
    rw [pow_zero, one_mul] at hn
    simp only [hnext, if_pos hn]
    exact ⟨_, rfl⟩
  | succ n ih =>
    obtain ⟨it, hit, hnext, -⟩ := step_phi (h l hl).1 L
    unfold invLoop
    rw [hit]
    simp only [hnext]
    split
    · exact ⟨_, rfl⟩
    · refine ih (hin l hl) ?_
      have := lip l hl (L + Phi u1 u2 l) (hin l hl)
      have e : L + Phi u1 u2 (L + Phi u1 u2 l) - (L + Phi u1 u2 l) = Phi u1 u2 (L + Phi u1 u2 l) - Phi u1 u2 l := by ring
      rw [e]
      refine lt_of_le_of_lt (mul_le_mul_of_nonneg_left this (by positivity)) ?_
      rw [← mul_assoc, ← pow_succ]
      exact hn

/-- A place of the auxiliary sphere. -/
noncomputable def sph (u l : ℝ) : E3 := !₂[cos u * cos l, cos u * sin l, sin u]

theorem sph_add (u1 u2 l m : ℝ) : ‖sph u1 l + sph u2 m‖ ^ 2 = 2 + 2 * kk u1 u2 (m - l) := by
  rw [EuclideanSpace.norm_eq, sq_sqrt (by positivity), Fin.sum_univ_three]
  unfold sph kk
  simp only [norm_eq_abs, sq_abs, PiLp.add_apply]
  simp only [PiLp.toLp_apply, Matrix.cons_val_zero, Matrix.cons_val_one, Matrix.cons_val]
  rw [cos_sub]
  linear_combination cos u1 ^ 2 * sin_sq_add_cos_sq l + cos u2 ^ 2 * sin_sq_add_cos_sq m + sin_sq_add_cos_sq u1 + sin_sq_add_cos_sq u2

theorem sph_sub (u1 u2 l m : ℝ) : ‖sph u1 l - sph u2 m‖ ^ 2 = 2 - 2 * kk u1 u2 (m - l) := by
  rw [EuclideanSpace.norm_eq, sq_sqrt (by positivity), Fin.sum_univ_three]
  unfold sph kk
  simp only [norm_eq_abs, sq_abs, PiLp.sub_apply]
  simp only [PiLp.toLp_apply, Matrix.cons_val_zero, Matrix.cons_val_one, Matrix.cons_val]
  rw [cos_sub]
  linear_combination cos u1 ^ 2 * sin_sq_add_cos_sq l + cos u2 ^ 2 * sin_sq_add_cos_sq m + sin_sq_add_cos_sq u1 + sin_sq_add_cos_sq u2

/-- Close longitudes are as far from the antipode. -/
theorem far_near (h2 : 0 ≤ cos u2) {L l : ℝ} (h : 0.04703 ≤ ‖sph u1 0 + sph u2 L‖) (hl : |l - L| ≤ 0.01055) : 0.000665 ≤ 1 + kk u1 u2 l := by
  have hc := chord (z := sin u2) (l := l) (m := L) h2
  have hc' : dist (sph u2 l) (sph u2 L) ≤ 0.01055 := by
    refine hc.trans ?_
    have := cos_le_one u2
    nlinarith [abs_nonneg (l - L)]
  have ht : ‖sph u1 0 + sph u2 L‖ ≤ ‖sph u1 0 + sph u2 l‖ + dist (sph u2 l) (sph u2 L) := by
    rw [dist_eq_norm, norm_sub_rev]
    have e : sph u1 0 + sph u2 L = (sph u1 0 + sph u2 l) + (sph u2 L - sph u2 l) := by abel
    rw [e]; exact norm_add_le _ _
  have hn : 0.03648 ≤ ‖sph u1 0 + sph u2 l‖ := by norm_num at h hc' ⊢; linarith
  have := sph_add u1 u2 0 l
  rw [sub_zero] at this
  have hsq := pow_le_pow_left₀ (by norm_num) hn 2
  norm_num at hsq this ⊢
  linarith

theorem kk_lt (h1 : 0 ≤ cos u1) (h2 : 0 ≤ cos u2) {L l : ℝ} (h : kk u1 u2 L < 1) (hl : cos l < 1) : kk u1 u2 l < 1 := by
  rcases (mul_nonneg h1 h2).eq_or_lt with h0 | h0
  · unfold kk at h ⊢
    rw [← h0] at h ⊢
    linarith
  · have := cos_le_one (u1 - u2)
    rw [cos_sub] at this
    unfold kk
    nlinarith

/-- Convergence for longitudes that differ by no more than half a turn, eastwards. -/
theorem conv_east (h1 : 0 ≤ cos u1) (h2 : 0 ≤ cos u2) {L tol : ℝ} {n : ℕ} (hL0 : 0 ≤ L) (hL : L ≤ π) (hne : kk u1 u2 L < 1)
    (hfar : 0.04703 ≤ ‖sph u1 0 + sph u2 L‖) (ht : 1e-12 ≤ tol) (hn : 125 ≤ n) : ∃ it, invLoop u1 u2 L tol n L = .ok it := by
  have hπ := pi_gt_three
  have mk : ∀ l, |l - L| ≤ 0.01055 → kk u1 u2 l < 1 → kk u1 u2 l ^ 2 < 1 ∧ 0.000665 ≤ 1 + kk u1 u2 l := fun l hl hk => by
    have := far_near h2 hfar hl
    refine ⟨?_, this⟩
    norm_num at this
    nlinarith
  have hLL := mk L (by simp; norm_num) hne
  obtain ⟨m, rfl⟩ : ∃ m, n = m + 1 := ⟨n - 1, by omega⟩
  have hsmall : (0.83 : ℝ) ^ m * |L + Phi u1 u2 L - L| < tol := by
    rw [add_sub_cancel_left]
    have h1 : (0.83 : ℝ) ^ m ≤ 0.83 ^ 124 := pow_le_pow_of_le_one (by norm_num) (by norm_num) (by omega)
    have h2 := mul_le_mul h1 (Phi_bds hLL.1).1 (abs_nonneg _) (by norm_num)
    have h3 : (0.83 : ℝ) ^ 124 * 0.01055 < 1e-12 := by norm_num
    linarith
  have hcos : ∀ l, 0 < l → l ≤ π + 0.01055 → cos l < 1 := fun l h0 h1 => by
    refine lt_of_le_of_ne (cos_le_one _) fun he => ?_
    rw [cos_eq_one_iff_of_lt_of_lt (by linarith) (by norm_num at h1; linarith)] at he
    linarith
  rcases hL0.eq_or_lt with h0 | h0
  · subst h0
    obtain ⟨it, hit, hnext, -⟩ := step_phi hLL.1 0
    have hP : Phi u1 u2 0 = 0 := by unfold Phi phi aa; simp
    refine ⟨it, ?_⟩
    unfold invLoop
    rw [hit]
    simp only [hnext, hP]
    rw [if_pos]
    norm_num at ht ⊢
    linarith
  · by_cases hπL : L + 0.01055 ≤ π
    · refine loop_conv (convex_Icc L (L + 0.01055)) ?_ ?_ m ⟨le_rfl, by norm_num⟩ hsmall
      · intro l hl
        refine mk l ?_ ?_
        · rw [abs_of_nonneg (by linarith [hl.1])]; linarith [hl.2]
        · exact kk_lt h1 h2 hne (hcos l (by linarith [hl.1]) (by norm_num at hπL hl ⊢; linarith [hl.2]))
      · intro l hl
        have hk : kk u1 u2 l < 1 := kk_lt h1 h2 hne (hcos l (by linarith [hl.1]) (by norm_num at hπL hl ⊢; linarith [hl.2]))
        have hk2 := (mk l (by rw [abs_of_nonneg (by linarith [hl.1])]; linarith [hl.2]) hk).1
        obtain ⟨hb, hp⟩ := Phi_bds hk2
        have hs : 0 ≤ sin l := sin_nonneg_of_nonneg_of_le_pi (by linarith [hl.1]) (by linarith [hl.2])
        have := hp (mul_nonneg (mul_nonneg h1 h2) hs)
        exact ⟨by linarith, by linarith [(abs_le.mp hb).2]⟩
    · push Not at hπL
      norm_num at hπL
      have hall : ∀ l, l ∈ Set.Icc (L - 0.01055) (L + 0.01055) → |l - L| ≤ 0.01055 ∧ kk u1 u2 l < 1 := fun l hl => by
        refine ⟨abs_le.mpr ⟨by linarith [hl.1], by linarith [hl.2]⟩, kk_lt h1 h2 hne (hcos l ?_ ?_)⟩ <;> norm_num at hl ⊢ <;> linarith [hl.1, hl.2]
      refine loop_conv (convex_Icc (L - 0.01055) (L + 0.01055)) ?_ ?_ m ⟨by norm_num, by norm_num⟩ hsmall
      · intro l hl
        exact mk l (hall l hl).1 (hall l hl).2
      · intro l hl
        have hb := abs_le.mp (Phi_bds (mk l (hall l hl).1 (hall l hl).2).1).1
        exact ⟨by linarith [hb.1], by linarith [hb.2]⟩

/-! ### Any longitudes -/

theorem invStep_turn (u1 u2 L l : ℝ) (k : ℤ) : invStep u1 u2 (L + k * (2 * π)) (l + k * (2 * π)) = (invStep u1 u2 L l).map fun it =>
    { it with next := it.next + k * (2 * π) } := by
  unfold invStep
  simp only [sin_add_int_mul_two_pi, cos_add_int_mul_two_pi]
  split
  · rfl
  · simp only [Except.map]
    congr 2
    ring

theorem invLoop_turn (u1 u2 L tol : ℝ) (n : ℕ) (l : ℝ) (k : ℤ) : invLoop u1 u2 (L + k * (2 * π)) tol n (l + k * (2 * π)) =
    (invLoop u1 u2 L tol n l).map fun it => { it with next := it.next + k * (2 * π) } := by
  induction n generalizing l with
  | zero => rfl
  | succ n ih =>
    unfold invLoop
    rw [invStep_turn]
    cases hs : invStep u1 u2 L l with
    | error e => rfl
    | ok it =>
      simp only [Except.map]
      rw [add_sub_add_right_eq_sub]
      split
      · rfl
      · exact ih it.next

theorem map_ok {α β ε : Type} {x : Except ε α} {g : α → β} {y : β} (h : x.map g = .ok y) : ∃ z, x = .ok z := by
  cases x with
  | error e => cases h
  | ok z => exact ⟨z, rfl⟩

/-- Convergence. -/
theorem conv_all (h1 : 0 ≤ cos u1) (h2 : 0 ≤ cos u2) {L tol : ℝ} {n : ℕ} (hne : kk u1 u2 L < 1)
    (hfar : 0.04703 ^ 2 ≤ 2 + 2 * kk u1 u2 L) (ht : 1e-12 ≤ tol) (hn : 125 ≤ n) : ∃ it, invLoop u1 u2 L tol n L = .ok it := by
  obtain ⟨k, ⟨hk1, hk2⟩, -⟩ := existsUnique_sub_zsmul_mem_Ioc (two_pi_pos) L (-π)
  set M := L - k • (2 * π) with hM
  have hLM : L = M + k * (2 * π) := by rw [hM, zsmul_eq_mul]; ring
  have hkM : kk u1 u2 L = kk u1 u2 M := by unfold kk; rw [hLM, cos_add_int_mul_two_pi]
  rw [hkM] at hne hfar
  suffices H : ∃ it, invLoop u1 u2 M tol n M = .ok it by
    obtain ⟨it, hit⟩ := H
    refine ⟨{ it with next := it.next + k * (2 * π) }, ?_⟩
    rw [hLM, invLoop_turn, hit]; rfl
  have far : ∀ v1 v2 m : ℝ, 0.04703 ^ 2 ≤ 2 + 2 * kk v1 v2 m → 0.04703 ≤ ‖sph v1 0 + sph v2 m‖ := fun v1 v2 m h => by
    have := sph_add v1 v2 0 m
    rw [sub_zero] at this
    rw [← this] at h
    exact (pow_le_pow_iff_left₀ (by norm_num) (norm_nonneg _) two_ne_zero).mp h
  rcases le_or_gt 0 M with h0 | h0
  · exact conv_east h1 h2 h0 (by linarith) hne (far _ _ _ hfar) ht hn
  · have hk : kk u1 u2 M = kk u2 u1 (-M) := by unfold kk; rw [cos_neg]; ring
    rw [hk] at hne hfar
    obtain ⟨it, hit⟩ := conv_east (u1 := u2) (u2 := u1) h2 h1 (by linarith : 0 ≤ -M) (by linarith) hne (far _ _ _ hfar) ht hn
    rw [invLoop_symm] at hit
    exact map_ok hit

/-- **C71.** Distance and bearing are found for all places that are not the same and at least 300 km from being opposite to each other, in no
more than 125 iterations at the usual tolerance. (What is found is right: `c71_inverse`.) -/
theorem c71_answers {k tol : ℝ} {n : ℕ} {p q : LL} (ht : 1e-12 ≤ tol) (hn : 125 ≤ n) (hp : Lat p) (hq : Lat q) (hne : ground p ≠ ground q)
    (hfar : 300000 ≤ dist (ground p) (-ground q)) : ∃ d β, distBearing k tol n p q = .ok (d, β) := by
  have hc : ∀ {x : LL}, Lat x → 0 ≤ cos (reduced x.1) := fun hx => by rw [red_cos hx]; exact div_nonneg (cos_lat hx) (om_pos _).le
  have ha := a_pos
  have hb := b_pos
  have hba : b ≤ a := by unfold b; have := f_pos; nlinarith
  have hg : ∀ {x : LL}, Lat x → ground x = !₂[a * sph (reduced x.1) (radians x.2) 0, a * sph (reduced x.1) (radians x.2) 1, b * sph (reduced x.1) (radians x.2) 2] := fun hx => by
    rw [ground_eq hx]; unfold sph; refine ext3 ?_ ?_ ?_ <;> simp [mul_assoc]
  have hL : radians (q.2 - p.2) = radians q.2 - radians p.2 := by unfold radians; ring
  have h1 : kk (reduced p.1) (reduced q.1) (radians (q.2 - p.2)) < 1 := by
    have hle : kk (reduced p.1) (reduced q.1) (radians (q.2 - p.2)) ≤ 1 := by
      have := kk_le (reduced p.1) (reduced q.1) (radians (q.2 - p.2)); nlinarith
    refine lt_of_le_of_ne hle fun he => hne ?_
    rw [hL] at he
    have := sph_sub (reduced p.1) (reduced q.1) (radians p.2) (radians q.2)
    rw [he] at this
    have h0 : sph (reduced p.1) (radians p.2) = sph (reduced q.1) (radians q.2) := by
      rw [← sub_eq_zero, ← norm_eq_zero]; nlinarith
    rw [hg hp, hg hq, h0]
  have h2 : 0.04703 ^ 2 ≤ 2 + 2 * kk (reduced p.1) (reduced q.1) (radians (q.2 - p.2)) := by
    rw [hL, ← sph_add]
    apply pow_le_pow_left₀ (by norm_num)
    have hle : dist (ground p) (-ground q) ≤ a * ‖sph (reduced p.1) (radians p.2) + sph (reduced q.1) (radians q.2)‖ := by
      rw [dist_eq_norm, sub_neg_eq_add, hg hp, hg hq]
      set x := sph (reduced p.1) (radians p.2)
      set y := sph (reduced q.1) (radians q.2)
      rw [EuclideanSpace.norm_eq, EuclideanSpace.norm_eq, Fin.sum_univ_three, Fin.sum_univ_three]
      apply sqrt_le_iff.mpr
      refine ⟨by positivity, ?_⟩
      rw [mul_pow, sq_sqrt (by positivity)]
      simp only [norm_eq_abs, sq_abs, PiLp.add_apply]
      simp only [PiLp.toLp_apply, Matrix.cons_val_zero, Matrix.cons_val_one, Matrix.cons_val]
      have : b ^ 2 * (x 2 + y 2) ^ 2 ≤ a ^ 2 * (x 2 + y 2) ^ 2 := mul_le_mul_of_nonneg_right (by nlinarith) (sq_nonneg _)
      nlinarith
    have ha' : a = 6378137 := rfl
    rw [ha'] at hle
    norm_num
    linarith
  unfold distBearing
  by_cases he : p.1 = q.1 ∧ p.2 = q.2
  · rw [if_pos he]; exact ⟨_, _, rfl⟩
  rw [if_neg he]
  obtain ⟨it, hit⟩ := conv_all (hc hp) (hc hq) h1 h2 ht hn
  simp only [hit]
  exact ⟨_, _, rfl⟩

example : ∃ d β, distBearing 1852 1e-12 200 (0, 0) (45, 90) = .ok (d, β) := by
  have hp : Lat (0, 0) := ⟨by norm_num, by norm_num⟩
  have hq : Lat (45, 90) := ⟨by norm_num, by norm_num⟩
  have e1 : ground (0, 0) 0 = a := by rw [ground_eq hp]; simp [radians, show reduced 0 = 0 by simp [reduced, radians]]
  have e2 : ground (45, 90) 0 = 0 := by
    have : radians 90 = π / 2 := by unfold radians; ring
    rw [ground_eq hq]; simp [this]
  refine c71_answers le_rfl (by norm_num) hp hq (fun h => ?_) ?_
  · have := congrArg (fun v : E3 => v 0) h
    simp only [e1, e2] at this
    exact a_pos.ne' this
  · have h := PiLp.norm_apply_le (ground (0, 0) - -ground (45, 90)) 0
    rw [PiLp.sub_apply, PiLp.neg_apply, e1, e2] at h
    rw [dist_eq_norm]
    refine le_trans ?_ h
    rw [norm_eq_abs]; unfold a; norm_num

end Verif.Geod
