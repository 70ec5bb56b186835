import Verif.Crossing.Sim
import Verif.Subdiv.Missed

/-! # C72: when the search answers -/

namespace Verif.Subdiv

open Verif.Globe Verif.Path Verif.Crossing Real InnerProductGeometry

/-! ### A sphere and a great circle -/

/-- Between the values of a wave of period `2π` at three places less than `π` apart. -/
theorem wave_three (p q α β γ : ℝ) :
    (p * cos α + q * sin α) * sin (γ - β) - (p * cos β + q * sin β) * sin (γ - α) + (p * cos γ + q * sin γ) * sin (β - α) = 0 := by
  rw [sin_sub, sin_sub, sin_sub]; ring

theorem sines {x y : ℝ} (hx : 0 < x) (hy : 0 < y) (h : x + y < π) : 0 < sin x + sin y - sin (x + y) := by
  have h1 : sin x + sin y - sin (x + y) = sin x * (1 - cos y) + sin y * (1 - cos x) := by rw [sin_add]; ring
  have sx := sin_pos_of_pos_of_lt_pi hx (by linarith)
  have sy := sin_pos_of_pos_of_lt_pi hy (by linarith)
  have cy : cos y < 1 := by
    rw [← cos_zero]; exact cos_lt_cos_of_nonneg_of_le_pi le_rfl (by linarith) hy
  have cx := cos_le_one x
  rw [h1]
  nlinarith [mul_pos sx (sub_pos.2 cy), mul_nonneg sy.le (sub_nonneg.2 cx)]

/-- Out, in, out: only if the mean of the wave is out. -/
theorem wave_out {p q κ α β γ : ℝ} (h1 : α < β) (h2 : β < γ) (h3 : γ - α < π) (ha : p * cos α + q * sin α < κ) (hb : κ ≤ p * cos β + q * sin β)
    (hc : p * cos γ + q * sin γ < κ) : 0 < κ := by
  have w := wave_three p q α β γ
  have s := sines (x := β - α) (y := γ - β) (by linarith) (by linarith) (by linarith)
  rw [show β - α + (γ - β) = γ - α by ring] at s
  have s1 := sin_pos_of_pos_of_lt_pi (x := γ - β) (by linarith) (by linarith)
  have s2 := sin_pos_of_pos_of_lt_pi (x := β - α) (by linarith) (by linarith)
  have s3 := sin_pos_of_pos_of_lt_pi (x := γ - α) (by linarith) h3
  have := mul_lt_mul_of_pos_right ha s1
  have := mul_lt_mul_of_pos_right hc s2
  have := mul_le_mul_of_nonneg_right hb s3.le
  have hk : 0 < κ * (sin (β - α) + sin (γ - β) - sin (γ - α)) := by linarith
  exact (pos_iff_pos_of_mul_pos hk).2 s

/-- In, out, in: only if it is in. -/
theorem wave_in {p q κ α β γ : ℝ} (h1 : α < β) (h2 : β < γ) (h3 : γ - α < π) (ha : κ ≤ p * cos α + q * sin α) (hb : p * cos β + q * sin β < κ)
    (hc : κ ≤ p * cos γ + q * sin γ) : κ < 0 := by
  have w := wave_three p q α β γ
  have s := sines (x := β - α) (y := γ - β) (by linarith) (by linarith) (by linarith)
  rw [show β - α + (γ - β) = γ - α by ring] at s
  have s1 := sin_pos_of_pos_of_lt_pi (x := γ - β) (by linarith) (by linarith)
  have s2 := sin_pos_of_pos_of_lt_pi (x := β - α) (by linarith) (by linarith)
  have s3 := sin_pos_of_pos_of_lt_pi (x := γ - α) (by linarith) h3
  have := mul_le_mul_of_nonneg_right ha s1.le
  have := mul_le_mul_of_nonneg_right hc s2.le
  have := mul_lt_mul_of_pos_right hb s3
  have hk : κ * (sin (β - α) + sin (γ - β) - sin (γ - α)) < 0 := by linarith
  by_contra hn
  have := mul_nonneg (not_lt.1 hn) s.le
  linarith

/-- Being in range on a great circle at a fixed altitude is a wave above a threshold. -/
theorem range_wave {x u : E3} (hx : inner ℝ x x = 1) (hu : inner ℝ u u = 1) (hxu : inner ℝ x u = 0) (r : ℝ) (C : E3) (h : ℝ) (hr : 0 ≤ r) :
    ∃ p q κ : ℝ, ∀ ψ, InRange r C (arc x u ψ) h ↔ κ ≤ p * cos ψ + q * sin ψ := by
  refine ⟨2 * (R + h) * inner ℝ x C, 2 * (R + h) * inner ℝ u C, (R + h) ^ 2 + ‖C‖ ^ 2 - r ^ 2, fun ψ => ?_⟩
  have hn := arc_norm hx hu hxu ψ
  have e : dist ((R + h) • arc x u ψ) C ^ 2 = (R + h) ^ 2 - 2 * (R + h) * inner ℝ (arc x u ψ) C + ‖C‖ ^ 2 := by
    rw [dist_eq_norm, norm_sub_sq_real, norm_smul, hn, inner_smul_left]
    simp only [norm_eq_abs, mul_one, sq_abs, conj_trivial]; ring
  have e2 : inner ℝ (arc x u ψ) C = cos ψ * inner ℝ x C + sin ψ * inner ℝ u C := by
    unfold arc; rw [inner_add_left, inner_smul_left, inner_smul_left]; simp
  unfold InRange
  rw [← abs_of_nonneg (dist_nonneg (x := (R + h) • arc x u ψ) (y := C)), ← abs_of_nonneg hr, ← sq_le_sq, e, e2, abs_of_nonneg hr]
  constructor <;> intro h <;> nlinarith

/-! ### The search on an arc -/

section
variable (x u : E3) (δ : ℝ) (hδ : 0 ≤ δ) (c : E3) (r h : ℝ)

open Classical in
/-- An arc of a great circle at a fixed altitude, its points given by their angles. -/
noncomputable def onArc : Crossing.Earth ℝ (Set.Icc 0 δ) where
  dist α β := R * |β.1 - α.1|
  samples α β n := (List.range (n + 1)).map fun (i : ℕ) => Set.projIcc 0 δ hδ (α.1 + (β.1 - α.1) * (i / n))
  inside α := decide (InRange r c (arc x u α.1) h)
  raises _ _ _ := false
end

variable {x u : E3} {δ : ℝ} {hδ : 0 ≤ δ} {c : E3} {r h : ℝ}

theorem between_mem {a b : ℝ} (ha : a ∈ Set.Icc 0 δ) (hb : b ∈ Set.Icc 0 δ) {i n : ℕ} (hi : i ≤ n) (hn : 0 < n) : a + (b - a) * ((i : ℝ) / n) ∈ Set.Icc 0 δ := by
  have hn' : (0 : ℝ) < n := by exact_mod_cast hn
  have h1 : (i : ℝ) / n ≤ 1 := (div_le_one hn').2 (by exact_mod_cast hi)
  have h0 : 0 ≤ (i : ℝ) / n := by positivity
  obtain ⟨a0, a1⟩ := ha
  obtain ⟨b0, b1⟩ := hb
  constructor <;> nlinarith

theorem onArc_get {α β : Set.Icc 0 δ} {n : ℕ} (hn : 0 < n) {i : ℕ} {y : Set.Icc 0 δ} (hy : ((onArc x u δ hδ c r h).samples α β n)[i]? = some y) :
    i ≤ n ∧ y.1 = α.1 + (β.1 - α.1) * (i / n) := by
  simp only [onArc, List.getElem?_map, Option.map_eq_some_iff] at hy
  obtain ⟨j, hj, rfl⟩ := hy
  obtain ⟨hl, hj⟩ := List.getElem?_eq_some_iff.1 hj
  rw [List.getElem_range] at hj
  subst hj
  rw [List.length_range] at hl
  refine ⟨by omega, ?_⟩
  rw [Set.projIcc_of_mem hδ (between_mem α.2 β.2 (by omega) hn)]

theorem onArc_ends : ExactEnds (onArc x u δ hδ c r h) where
  quiet _ _ _ := rfl
  nonempty a b n := by simp [onArc]
  length a b n _ := by simp [onArc]
  head a b n hn := by
    have : Set.projIcc 0 δ hδ a.1 = a := Set.projIcc_val hδ a
    simp [onArc, List.range_succ_eq_map, this]
  last a b n hn := by
    have hn' : (n : ℝ) ≠ 0 := by exact_mod_cast hn.ne'
    have : Set.projIcc 0 δ hδ b.1 = b := Set.projIcc_val hδ b
    simp [onArc, List.range_succ, hn', this]

theorem onArc_even : Even (onArc x u δ hδ c r h) := by
  intro a b n hn y z hnb
  have hn' : (0 : ℝ) < n := by exact_mod_cast hn
  obtain ⟨i, h1, h2⟩ := nb_index hnb
  obtain ⟨-, e1⟩ := onArc_get hn h1
  obtain ⟨-, e2⟩ := onArc_get hn h2
  show R * |z.1 - y.1| * n = R * |b.1 - a.1|
  have : z.1 - y.1 = (b.1 - a.1) / n := by rw [e1, e2]; push_cast; field_simp; ring
  rw [this, abs_div, abs_of_pos hn']
  field_simp

/-- The samples run from one end to the other. -/
theorem onArc_pairs (a b : Set.Icc 0 δ) (n : ℕ) (hn : 0 < n) :
    ((onArc x u δ hδ c r h).samples a b n).Pairwise fun y z => ∃ s t : ℝ, 0 ≤ s ∧ s < t ∧ t ≤ 1 ∧ y.1 = a.1 + (b.1 - a.1) * s ∧ z.1 = a.1 + (b.1 - a.1) * t := by
  have hn' : (0 : ℝ) < n := by exact_mod_cast hn
  rw [List.pairwise_iff_getElem]
  intro i j hi hj hij
  obtain ⟨-, e1⟩ := onArc_get hn (List.getElem?_eq_getElem hi)
  obtain ⟨l2, e2⟩ := onArc_get hn (List.getElem?_eq_getElem hj)
  refine ⟨i / n, j / n, by positivity, by gcongr, (div_le_one hn').2 (by exact_mod_cast l2), e1, e2⟩

theorem onArc_one (hx : inner ℝ x x = 1) (hu : inner ℝ u u = 1) (hxu : inner ℝ x u = 0) (hπ : δ < π) (hr : 0 ≤ r) : OneCrossing (onArc x u δ hδ c r h) := by
  intro a b n hn hne
  obtain ⟨p, q, κ, hw⟩ := range_wave hx hu hxu r c h hr
  have hin : ∀ y : Set.Icc 0 δ, (onArc x u δ hδ c r h).inside y = true ↔ κ ≤ p * cos y.1 + q * sin y.1 := fun y => by
    simp only [onArc, decide_eq_true_eq]; exact hw y.1
  have hout : ∀ y : Set.Icc 0 δ, (onArc x u δ hδ c r h).inside y = false ↔ p * cos y.1 + q * sin y.1 < κ := fun y => by
    rw [← not_le, ← hin y]; simp
  apply flips_mono _ ((onArc x u δ hδ c r h).inside b)
  refine (onArc_pairs a b n hn).imp ?_
  rintro y z ⟨s, t, s0, st, t1, ey, ez⟩ hy
  by_contra hz
  -- the four places
  have span : ∀ v w : Set.Icc 0 δ, v.1 - w.1 < π := fun v w => by linarith [v.2.2, w.2.1]
  have hab : a ≠ b := fun e => hne (by rw [e])
  have hab' : a.1 ≠ b.1 := fun e => hab (Subtype.ext e)
  have hyb : y.1 ≠ b.1 := by
    rw [ey]; intro e
    have : (b.1 - a.1) * (1 - s) = 0 := by linarith
    rcases mul_eq_zero.1 this with h | h
    · exact hab' (by linarith)
    · linarith
  have hzb : z.1 ≠ b.1 := fun e => hz (by rw [Subtype.ext e])
  have hay : a.1 ≠ y.1 := fun e => hne (by rw [Subtype.ext e, hy])
  have s0' : 0 < s := lt_of_le_of_ne s0 fun e => hay (by rw [ey, ← e]; ring)
  have t1' : t < 1 := lt_of_le_of_ne t1 fun e => hzb (by rw [ez, e]; ring)
  -- a and z are alike, y and b are alike
  have hza : (onArc x u δ hδ c r h).inside z = (onArc x u δ hδ c r h).inside a := by
    revert hz hne
    cases (onArc x u δ hδ c r h).inside z <;> cases (onArc x u δ hδ c r h).inside a <;> cases (onArc x u δ hδ c r h).inside b <;> simp
  rcases lt_or_gt_of_ne hab' with hlt | hlt
  · have o1 : a.1 < y.1 := by rw [ey]; nlinarith
    have o2 : y.1 < z.1 := by rw [ey, ez]; nlinarith
    have o3 : z.1 < b.1 := by rw [ez]; nlinarith
    cases hb : (onArc x u δ hδ c r h).inside b
    · rw [hb] at hy hne
      have ha : (onArc x u δ hδ c r h).inside a = true := by simpa using hne
      rw [ha] at hza
      have := wave_in o1 o2 (span _ _) ((hin a).1 ha) ((hout y).1 hy) ((hin z).1 hza)
      have := wave_out o2 o3 (span _ _) ((hout y).1 hy) ((hin z).1 hza) ((hout b).1 hb)
      linarith
    · rw [hb] at hy hne
      have ha : (onArc x u δ hδ c r h).inside a = false := by simpa using hne
      rw [ha] at hza
      have := wave_out o1 o2 (span _ _) ((hout a).1 ha) ((hin y).1 hy) ((hout z).1 hza)
      have := wave_in o2 o3 (span _ _) ((hin y).1 hy) ((hout z).1 hza) ((hin b).1 hb)
      linarith
  · have o1 : y.1 < a.1 := by rw [ey]; nlinarith
    have o2 : z.1 < y.1 := by rw [ey, ez]; nlinarith
    have o3 : b.1 < z.1 := by rw [ez]; nlinarith
    cases hb : (onArc x u δ hδ c r h).inside b
    · rw [hb] at hy hne
      have ha : (onArc x u δ hδ c r h).inside a = true := by simpa using hne
      rw [ha] at hza
      have := wave_in o2 o1 (span _ _) ((hin z).1 hza) ((hout y).1 hy) ((hin a).1 ha)
      have := wave_out o3 o2 (span _ _) ((hout b).1 hb) ((hin z).1 hza) ((hout y).1 hy)
      linarith
    · rw [hb] at hy hne
      have ha : (onArc x u δ hδ c r h).inside a = false := by simpa using hne
      rw [ha] at hza
      have := wave_out o2 o1 (span _ _) ((hout z).1 hza) ((hin y).1 hy) ((hout a).1 ha)
      have := wave_in o3 o2 (span _ _) ((hin b).1 hb) ((hout z).1 hza) ((hin y).1 hy)
      linarith

/-! ### The search on the globe goes alike -/

/-- A tuple that stands for a point of the arc. -/
def Stands (x u : E3) (δ h : ℝ) (a : Lla) (α : Set.Icc 0 δ) : Prop := place a.1 = arc x u α.1 ∧ a.2 = h

/-- The first cartesian coordinate keeps its sign on the arc. -/
def OneSide (x u : E3) (δ : ℝ) : Prop := (∀ ψ ∈ Set.Icc 0 δ, 0 < (arc x u ψ) 0) ∨ ∀ ψ ∈ Set.Icc 0 δ, (arc x u ψ) 0 < 0

/-- It does not increase, or does at a rate of at least `10⁻⁷`. -/
def OneWay (x u : E3) (δ : ℝ) : Prop := (∀ ψ ∈ Set.Icc 0 δ, (arc x u (ψ + π / 2)) 0 ≤ 0) ∨ ∀ ψ ∈ Set.Icc 0 δ, 1 / 10 ^ 7 ≤ (arc x u (ψ + π / 2)) 0

theorem globe_exact (hx : inner ℝ x x = 1) (hu : inner ℝ u u = 1) (hxu : inner ℝ x u = 0) (hπ : δ ≤ π - 1 / 10 ^ 7) (h1 : OneSide x u δ) (h2 : OneWay x u δ)
    {s : Lla} {a b : Lla} {α β : Set.Icc 0 δ} (ha : Stands x u δ h a α) (hb : Stands x u δ h b β) (hlt : α.1 < β.1) {n : ℕ} (hn : 2 ≤ n) :
    (globe s r).raises a b n = false ∧ ((globe s r).samples a b n).length = n + 1 ∧
      ∀ (i : ℕ) y, ((globe s r).samples a b n)[i]? = some y → place y.1 = arc x u (α.1 + (β.1 - α.1) * (i / n)) ∧ y.2 = h := by
  have h7 : (0 : ℝ) < 1 / 10 ^ 7 := by norm_num
  have hle : β.1 - α.1 ≤ δ := by linarith [β.2.2, α.2.1]
  have hc : central a.1 b.1 = β.1 - α.1 := by
    unfold central; rw [ha.1, hb.1]
    exact arc_angle hx hu hxu α.1 β.1 hlt.le (by linarith)
  have hsum : (place a.1) 0 + (place b.1) 0 ≠ 0 := by
    rw [ha.1, hb.1]
    rcases h1 with h1 | h1
    · exact (add_pos (h1 _ α.2) (h1 _ β.2)).ne'
    · exact (add_neg (h1 _ α.2) (h1 _ β.2)).ne
  have hhead : heading a.1 (bearing a.1 b.1) = arc x u (α.1 + π / 2) := by
    have htar := target_eq a.1 b.1
    rw [hc, hb.1, ha.1] at htar
    have hs : sin (β.1 - α.1) ≠ 0 := (sin_pos_of_pos_of_lt_pi (by linarith) (by linarith)).ne'
    have e := arc_arc x u α.1 (β.1 - α.1)
    rw [add_sub_cancel, htar] at e
    unfold arc at e
    have e' := add_left_cancel e
    exact ((smul_right_injective E3 hs) e').symm
  have hslope : (heading a.1 (bearing a.1 b.1)) 0 * cos (central a.1 b.1) - (place a.1) 0 * sin (central a.1 b.1) = (arc x u (β.1 + π / 2)) 0 := by
    rw [hhead, hc, ha.1]
    have e := arc_arc x u α.1 (β.1 - α.1 + π / 2)
    rw [show α.1 + (β.1 - α.1 + π / 2) = β.1 + π / 2 by ring] at e
    rw [← e]
    unfold arc
    rw [cos_add_pi_div_two (β.1 - α.1), sin_add_pi_div_two (β.1 - α.1)]
    simp; ring
  obtain ⟨l, g1, g2, g3⟩ := linspace_exact a.1 b.1 n hn (by rw [hc]; linarith) (by rw [hc]; linarith) hsum (by
    rw [hslope]
    exact h2.imp (fun h => h _ β.2) (fun h => h _ β.2))
  obtain ⟨xs, lla, k1, k2, k3, k4⟩ := c61_ecef_and_geo a.1 b.1 a.2 b.2 n l g1
  have e1 : (globe s r).raises a b n = false := by unfold globe; simp only [k1]
  have e2 : (globe s r).samples a b n = lla := by unfold globe; simp only [k1]
  refine ⟨e1, by rw [e2]; exact k3, fun i y hy => ?_⟩
  rw [e2] at hy
  have hi : i < xs.length := by rw [k2, ← k3]; exact (List.getElem?_eq_some_iff.1 hy).1
  obtain ⟨m1, m2, -⟩ := k4 i xs[i] y (List.getElem?_eq_getElem hi) hy
  refine ⟨?_, ?_⟩
  · rw [g3 i y.1 m1, hhead, ha.1, hc, arc_arc]
  · rw [m2, ha.2, hb.2]; ring

theorem globe_fits (hx : inner ℝ x x = 1) (hu : inner ℝ u u = 1) (hxu : inner ℝ x u = 0) (hπ : δ ≤ π - 1 / 10 ^ 7) (h1 : OneSide x u δ) (h2 : OneWay x u δ) (s : Lla) :
    Fits (globe s r) (onArc x u δ hδ ((R + s.2) • place s.1) r h) (Stands x u δ h) fun α β => α.1 < β.1 where
  nonempty := globe_nonempty s r
  inside a α ha := by
    rw [Bool.eq_iff_iff, globe_inside, ha.1, ha.2]
    simp [onArc]
  dist a b α β ha hb hlt := by
    have h7 : (0 : ℝ) < 1 / 10 ^ 7 := by norm_num
    rw [dist_on hx hu hxu ha.1 hb.1 hlt.le (by linarith [β.2.2, α.2.1])]
    show _ = R * |β.1 - α.1|
    rw [abs_of_pos (by linarith)]
  quiet a b α β n ha hb hlt hn := (globe_exact hx hu hxu hπ h1 h2 ha hb hlt (by omega)).1
  samples a b α β n ha hb hlt hn := by
    obtain ⟨-, g2, g3⟩ := globe_exact (r := r) (s := s) hx hu hxu hπ h1 h2 ha hb hlt (show 2 ≤ n by omega)
    rw [List.forall₂_iff_get]
    have hl : ((onArc x u δ hδ ((R + s.2) • place s.1) r h).samples α β n).length = n + 1 := onArc_ends.length _ _ _ (by omega)
    refine ⟨by rw [g2, hl], fun i hi hi' => ?_⟩
    obtain ⟨m1, m2⟩ := g3 i _ (List.getElem?_eq_getElem hi)
    obtain ⟨-, m3⟩ := onArc_get (by omega) (List.getElem?_eq_getElem hi')
    exact ⟨by rw [List.get_eq_getElem, List.get_eq_getElem, m1, m3], m2⟩
  forward α β n hlt hn y z hnb := by
    have hn' : (0 : ℝ) < n := by exact_mod_cast (by omega : 0 < n)
    obtain ⟨i, k1, k2⟩ := nb_index hnb
    obtain ⟨-, e1⟩ := onArc_get (by omega) k1
    obtain ⟨-, e2⟩ := onArc_get (by omega) k2
    show y.1 < z.1
    rw [e1, e2]
    have : (i : ℝ) / n < ((i + 1 : ℕ) : ℝ) / n := by gcongr; simp
    have hp : 0 < β.1 - α.1 := by linarith
    nlinarith

/-! ### C72 -/

/-- **C72, answers.** A level leg of at least 1157.5 m is searched without an error if, on the way, the first cartesian coordinate (towards latitude
and longitude zero) keeps its sign and does not increase, or increases at a rate of at least `10⁻⁷` everywhere. Missing: other legs, for some of which the
function raises (`c72_cancels`, `c56_short_crossings_fail`). -/
theorem c72_answers_partial (k ka v r : ℝ) (s f c : Geo) (hv : v ≠ 0) (hr : 0 ≤ r * k) (hlevel : s.alt = f.alt) (hlong : 1157.5 ≤ R * angleOf s f)
    (hC : angleOf s f ≤ π - 1 / 10 ^ 7)
    (hside : (∀ ψ ∈ Set.Icc 0 (angleOf s f), 0 < (travel s f ψ) 0) ∨ ∀ ψ ∈ Set.Icc 0 (angleOf s f), (travel s f ψ) 0 < 0)
    (hway : (∀ ψ ∈ Set.Icc 0 (angleOf s f), (travel s f (ψ + π / 2)) 0 ≤ 0) ∨ ∀ ψ ∈ Set.Icc 0 (angleOf s f), 1 / 10 ^ 7 ≤ (travel s f (ψ + π / 2)) 0) :
    ∃ ans, subdivide k ka s f v c r = .ok ans := by
  have h7 : (0 : ℝ) < 1 / 10 ^ 7 := by norm_num
  have hδ : 0 < angleOf s f := by
    by_contra hn
    have := mul_nonpos_of_nonneg_of_nonpos R_pos.le (not_lt.1 hn)
    norm_num at hlong
    linarith
  have hsin : sin (angleOf s f) ≠ 0 := (sin_pos_of_pos_of_lt_pi hδ (by linarith)).ne'
  have htr : ∀ ψ, travel s f ψ = arc (spot s) (dir s f) ψ := travel_arc hsin
  simp only [htr] at hside hway
  have hfit := globe_fits (h := s.alt * ka) (r := r * k) (hδ := hδ.le) (spot_norm s) (dir_norm s f) (spot_dir s f) hC hside hway (toTuple ka c)
  obtain ⟨m, hm⟩ := c56_long_legs_partial (onArc (spot s) (dir s f) (angleOf s f) hδ.le ((R + (toTuple ka c).2) • place (toTuple ka c).1) (r * k) (s.alt * ka))
    onArc_ends onArc_even (onArc_one (spot_norm s) (dir_norm s f) (spot_dir s f) (by linarith) hr) ⟨0, le_rfl, hδ.le⟩ ⟨angleOf s f, hδ.le, le_rfl⟩ (by
      show 1157.5 ≤ R * |angleOf s f - 0|
      rw [sub_zero, abs_of_pos hδ]; exact hlong)
  obtain ⟨l, hl, -⟩ := intersections_like hfit onArc_ends (a := toTuple ka s) (b := toTuple ka f)
    ⟨by rw [toTuple_place, arc_zero], toTuple_alt ka s⟩ ⟨by rw [toTuple_place]; exact spot_target s f, by rw [toTuple_alt, hlevel]⟩ hδ (by norm_num) [10, 20] hm
  unfold subdivide
  simp only [if_neg hv, hl]
  split
  · exact ⟨_, rfl⟩
  · exact ⟨_, rfl⟩

/-- A degree along the equator, from the point where the first coordinate is largest, with a sensor anywhere. -/
example (v : ℝ) (hv : v ≠ 0) (c : Geo) : ∃ ans, subdivide 1 1 (eq 0) (eq 1) v c 1000 = .ok ans := by
  have ha : angleOf (eq 0) (eq 1) = (1 - 0) * π / 180 := angle_eq 0 1 (by norm_num) (by norm_num)
  have hp := pi_gt_three
  have hp4 := pi_lt_four
  refine c72_answers_partial 1 1 v 1000 (eq 0) (eq 1) c hv (by norm_num) rfl ?_ ?_ (.inl fun ψ hψ => ?_) (.inl fun ψ hψ => ?_)
  · rw [ha, show R = 6378137 from rfl]; norm_num; linarith
  · rw [ha]; norm_num; linarith
  · rw [ha] at hψ
    rw [degree_travel]
    exact cos_pos_of_mem_Ioo ⟨by linarith [hψ.1], by linarith [hψ.2]⟩
  · rw [ha] at hψ
    rw [degree_travel]
    show cos (ψ + π / 2) ≤ 0
    rw [cos_add_pi_div_two]
    linarith [sin_nonneg_of_nonneg_of_le_pi hψ.1 (by linarith [hψ.2])]

/-- **C72 is false of legs whose ends cancel in the first coordinate**: the function raises, wherever the sensor is. -/
theorem c72_cancels (k ka v r : ℝ) (s f c : Geo) (hx : (spot s) 0 + (spot f) 0 = 0) : ∃ e, subdivide k ka s f v c r = .error e := by
  unfold subdivide
  simp only
  split
  · exact ⟨_, rfl⟩
  have hraise : ∀ n, (globe (toTuple ka c) (r * k)).raises (toTuple ka s) (toTuple ka f) n = true := by
    intro n
    obtain ⟨e, he⟩ := c61_linspace_cancels (toTuple ka s).1 (toTuple ka f).1 n (by rw [toTuple_place, toTuple_place]; exact hx)
    unfold globe ecefAndGeoLinspace
    simp only [he]
  have herr : ∃ e, intersections (globe (toTuple ka c) (r * k)) (toTuple ka s) (toTuple ka f) 9260 [10, 20] = .error e := by
    unfold intersections findCrossings preprocess
    rw [if_neg (by norm_num)]
    cases pointsFor ((globe (toTuple ka c) (r * k)).dist (toTuple ka s) (toTuple ka f)) 9260 with
    | error e => exact ⟨e, rfl⟩
    | ok n => simp only [hraise n, if_true]; exact ⟨_, rfl⟩
  obtain ⟨e, he⟩ := herr
  exact ⟨e, by rw [he]⟩

/-- From 89 to 91 degrees east along the equator. -/
example (v r : ℝ) (c : Geo) : ∃ e, subdivide 1 1 (eq 89) (eq 91) v c r = .error e := by
  refine c72_cancels 1 1 v r _ _ c ?_
  rw [spot_eq, spot_eq]
  show cos (89 * π / 180) + cos (91 * π / 180) = 0
  rw [show (91 : ℝ) * π / 180 = π - 89 * π / 180 by ring, cos_pi_sub]
  ring

end Verif.Subdiv
