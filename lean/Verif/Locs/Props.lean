import Verif.Locs.Model
import Verif.Analytic.Lemmas
import Verif.Globe.Sample
import Verif.Globe.Motion

/-!
# C64: locations are values
-/

namespace Verif.Locs

open Real InnerProductGeometry Verif.Globe Verif.Path Verif.Analytic

/-! ### Frozen -/

/-- The operation does not touch the list of protected names, nor delete a protected name. -/
def Op.Fair (names : List String) : Op → Prop
  | .assign n _ => n ≠ "_no_override"
  | .delete n => n ≠ "_no_override" ∧ n ∉ names

/-- A location that protects `names`. -/
def Protects (names : List String) (o : Obj) : Prop := o "_no_override" = some (.names names)

theorem step_fair (names : List String) (o : Obj) (h : Protects names o) (op : Op) (hf : op.Fair names) :
    Protects names (step o op).1 ∧ (∀ n ∈ names, (step o op).1 n = o n) := by
  unfold Protects at *
  cases op with
  | assign n v =>
    simp only [step, assign, h]
    split
    · exact ⟨h, fun _ _ => rfl⟩
    · rename_i hn
      refine ⟨(Function.update_of_ne (fun hc => hf hc.symm) _ _).trans h, fun n' hn' => Function.update_of_ne (fun hc => by rw [hc] at hn'; exact hn hn') _ _⟩
  | delete n =>
    simp only [step, delete]
    split
    · exact ⟨h, fun _ _ => rfl⟩
    · refine ⟨(Function.update_of_ne (fun hc => hf.1 hc.symm) _ _).trans h, fun n' hn' => Function.update_of_ne (fun hc => by rw [hc] at hn'; exact hf.2 hn') _ _⟩

/-- **C64, frozen**: whatever is done to the attributes of a location, its coordinates stay and assigning to them fails, as long as nobody assigns or deletes
`_no_override` or deletes a coordinate. -/
theorem c64_frozen_partial (names : List String) (o : Obj) (h : Protects names o) (ops : List Op) (hf : ∀ op ∈ ops, op.Fair names) (n : String) (hn : n ∈ names) (v : Val) :
    exec ops o n = o n ∧ assign (exec ops o) n v = (exec ops o, .frozen) := by
  induction ops generalizing o with
  | nil => refine ⟨rfl, ?_⟩; unfold Protects at h; simp only [exec, assign, h, if_pos hn]
  | cons a as ih =>
    obtain ⟨h1, h2⟩ := step_fair names o h a (hf a (by simp))
    obtain ⟨h3, h4⟩ := ih _ h1 (fun op hop => hf op (by simp [hop]))
    exact ⟨h3.trans (h2 n hn), h4⟩

/-- A new location has the coordinates it was given, and protects them. -/
theorem c64_new (x y z : ℝ) (b : Bool) :
    (Protects ["x", "y", "z", "use_altitude_units"] (newCartesian x y z b) ∧ newCartesian x y z b "x" = some (.num x) ∧ newCartesian x y z b "y" = some (.num y) ∧
      newCartesian x y z b "z" = some (.num z) ∧ newCartesian x y z b "use_altitude_units" = some (.flag b)) ∧
    (Protects ["lat", "lon", "alt", "in_radians"] (newGeodetic x y z b) ∧ newGeodetic x y z b "lat" = some (.num x) ∧ newGeodetic x y z b "lon" = some (.num y) ∧
      newGeodetic x y z b "alt" = some (.num z) ∧ newGeodetic x y z b "in_radians" = some (.flag b)) := by
  refine ⟨⟨rfl, rfl, rfl, rfl, rfl⟩, rfl, rfl, rfl, rfl, rfl⟩

/-- **C64 is violated by assigning `_no_override`**: it is not among the protected names, and afterwards the coordinates can be assigned. -/
theorem c64_lifted (x y z x' : ℝ) (b : Bool) :
    (assign (newCartesian x y z b) "_no_override" (.names [])).2 = .done ∧
    (assign (assign (newCartesian x y z b) "_no_override" (.names [])).1 "x" (.num x')).2 = .done ∧
    (assign (assign (newCartesian x y z b) "_no_override" (.names [])).1 "x" (.num x')).1 "x" = some (.num x') := by
  refine ⟨rfl, rfl, rfl⟩

/-- **C64 is violated by `del`**: a coordinate can be deleted; then it can not even be assigned again. -/
theorem c64_deleted (x y z x' : ℝ) (b : Bool) :
    (delete (newCartesian x y z b) "x").2 = .done ∧ (delete (newCartesian x y z b) "x").1 "x" = none ∧ (assign (delete (newCartesian x y z b) "x").1 "x" (.num x')).2 = .frozen := by
  refine ⟨rfl, rfl, rfl⟩

example : exec [.assign "x" (.num 7), .assign "note" (.num 1), .delete "note"] (newCartesian 1 2 3 false) "x" = some (.num 1) :=
  (c64_frozen_partial ["x", "y", "z", "use_altitude_units"] _ (c64_new 1 2 3 false).1.1 _ (by simp [Op.Fair]) "x" (by simp) (.num 0)).1

/-! ### Cartesian locations -/

theorem sub_euclid (c : ℝ) (a b : Loc) : Loc.sub c a b = euclid (a.arr c) (b.arr c) := rfl

/-- **C64**: the distance of cartesian locations is a metric on places. -/
theorem c64_cartesian_metric (c : ℝ) (a b d : Loc) :
    0 ≤ Loc.sub c a b ∧ Loc.sub c a b = Loc.sub c b a ∧ (Loc.sub c a b = 0 ↔ a.arr c = b.arr c) ∧ Loc.sub c a d ≤ Loc.sub c a b + Loc.sub c b d := by
  simp only [sub_euclid]
  exact ⟨euclid_nonneg _ _, euclid_comm _ _, ⟨euclid_eq_zero, fun h => by rw [h, euclid_self]⟩, euclid_triangle _ _ _⟩

/-- **C64, equality of cartesian locations**: reflexive and symmetric, true of the same place and of copies, and at most `10⁻⁵` apart when true.
Missing: it is not transitive and does not go with the hash, see below. -/
theorem c64_cartesian_eq_partial (c : ℝ) (a b : Loc) :
    cartEq c a a ∧ (cartEq c a b ↔ cartEq c b a) ∧ (cartEq c a b ↔ Loc.sub c a b ≤ 0.00001) ∧ (a.arr c = b.arr c → cartEq c a b) ∧ cartEq c (cartCopy a) a ∧
      cartKey (cartCopy a) = cartKey a ∧ (cartKey a = cartKey b → cartEq c a b) := by
  have h0 : ∀ a b : Loc, cartEq c a b ↔ Loc.sub c a b ≤ 0.00001 := fun a b => by unfold cartEq; rw [abs_of_nonneg (c64_cartesian_metric c a b a).1]
  have same : ∀ a b : Loc, a.arr c = b.arr c → cartEq c a b := fun a b h => by
    rw [h0, (c64_cartesian_metric c a b a).2.2.1.2 h]; norm_num
  refine ⟨same a a rfl, ?_, h0 a b, same a b, same _ _ rfl, rfl, fun h => same a b ?_⟩
  · rw [h0, h0, (c64_cartesian_metric c a b a).2.1]
  · simp only [cartKey, Prod.mk.injEq] at h; unfold Loc.arr; rw [h.1, h.2.1, h.2.2.1, h.2.2.2]

theorem shifted (c : ℝ) (a : Loc) (s : ℝ) : Loc.sub c a ⟨a.x + s, a.y, a.z, a.altUnits⟩ = |s| := by
  unfold Loc.sub Loc.arr
  simp only [sub_self, zero_pow two_ne_zero, add_zero]
  rw [show a.x - (a.x + s) = -s by ring, neg_sq, sqrt_sq_eq_abs]

/-- **C64 is violated: `==` is not transitive**, at any place. -/
theorem c64_not_transitive (c : ℝ) (a : Loc) : ∃ b d, cartEq c a b ∧ cartEq c b d ∧ ¬ cartEq c a d := by
  refine ⟨⟨a.x + 0.00001, a.y, a.z, a.altUnits⟩, ⟨a.x + 0.00001 + 0.00001, a.y, a.z, a.altUnits⟩, ?_, ?_, ?_⟩
  · unfold cartEq; rw [shifted]; norm_num
  · unfold cartEq; rw [shifted c ⟨a.x + 0.00001, a.y, a.z, a.altUnits⟩]; norm_num
  · unfold cartEq; rw [add_assoc, shifted]; norm_num

/-- **C64 is violated: equal cartesian locations have different keys**, from which the hash is computed: near any place, and for the same place given in
altitude units and in distance units. -/
theorem c64_cartesian_hash (c : ℝ) (a : Loc) :
    (∃ b, cartEq c a b ∧ cartKey a ≠ cartKey b) ∧ cartEq c ⟨a.x, a.y, a.z, true⟩ ⟨a.x, a.y, a.z * c, false⟩ ∧ cartKey ⟨a.x, a.y, a.z, true⟩ ≠ cartKey ⟨a.x, a.y, a.z * c, false⟩ := by
  refine ⟨⟨⟨a.x + 0.00001, a.y, a.z, a.altUnits⟩, ?_, ?_⟩, ?_, ?_⟩
  · unfold cartEq; rw [shifted]; norm_num
  · simp [cartKey]; norm_num
  · exact (c64_cartesian_eq_partial c _ _).2.2.2.1 rfl
  · simp [cartKey]

/-! ### Geodetic locations -/

theorem deg_ll (g : Geo) : g.ll = (g.toDegrees.lat, g.toDegrees.lon) := by
  unfold Geo.ll Geo.toDegrees; cases g.rad <;> simp [mul_div_assoc]

theorem toDegrees_alt (g : Geo) : g.toDegrees.alt = g.alt ∧ g.toDegrees.rad = false := by
  unfold Geo.toDegrees
  cases h : g.rad <;> simp [h]

theorem toRadians_alt (g : Geo) : (toRadians g).alt = g.alt ∧ (toRadians g).rad = true := by
  unfold toRadians
  cases h : g.rad <;> simp [h]

/-- **C64, equality of geodetic locations**: the same latitude, longitude and altitude, however they are given; hence an equivalence relation. -/
theorem c64_geodetic_eq (a b : Geo) : geoEq a b ↔ a.ll = b.ll ∧ a.alt = b.alt := by
  have hpi := pi_pos.ne'
  have key : ∀ x y : ℝ, x * 180 / π = y * 180 / π ↔ x = y := fun x y => by
    constructor
    · intro h; field_simp at h; linarith
    · rintro rfl; rfl
  unfold geoEq Geo.ll Geo.toDegrees toRadians radians
  cases ha : a.rad <;> cases hb : b.rad <;> simp [hb]
  · tauto
  · simp only [mul_div_assoc]; tauto
  · rw [← key a.lat, ← key a.lon, show b.lat * (π / 180) * 180 / π = b.lat by field_simp, show b.lon * (π / 180) * 180 / π = b.lon by field_simp]; tauto
  · tauto

/-- **C64**: the conversions and copies give equal locations, converted ones stay as they are, and `latlon` is the latitude and longitude in degrees. -/
theorem c64_convert (a b : Geo) :
    geoEq a.toDegrees a ∧ geoEq (toRadians a) a ∧ geoEq (geoCopy a) a ∧ geoKey (geoCopy a) = geoKey a ∧ a.toDegrees.rad = false ∧ (toRadians a).rad = true ∧
      a.toDegrees.toDegrees = a.toDegrees ∧ toRadians (toRadians a) = toRadians a ∧ latlon a = a.ll ∧ (geoKey a = geoKey b → geoEq a b) := by
  have hll : a.toDegrees.ll = a.ll := by rw [deg_ll a]; unfold Geo.ll; rw [(toDegrees_alt a).2]; simp
  refine ⟨(c64_geodetic_eq _ _).2 ⟨hll, (toDegrees_alt a).1⟩, (c64_geodetic_eq _ _).2 ⟨rad_ll a, (toRadians_alt a).1⟩, (c64_geodetic_eq _ _).2 ⟨rfl, rfl⟩, rfl,
    (toDegrees_alt a).2, (toRadians_alt a).2, ?_, toRadians_idem a, (deg_ll a).symm, fun h => (c64_geodetic_eq _ _).2 ?_⟩
  · have : ∀ g : Geo, g.rad = false → g.toDegrees = g := fun g h => by unfold Geo.toDegrees; rw [h]; simp
    exact this _ (toDegrees_alt a).2
  · simp only [geoKey, Prod.mk.injEq] at h
    unfold Geo.ll; rw [h.1, h.2.1, h.2.2.1, h.2.2.2]; exact ⟨rfl, rfl⟩

/-- **C64 is violated: equal geodetic locations have different keys**: any location in degrees and the same in radians. -/
theorem c64_geodetic_hash (a : Geo) (h : a.rad = false) : geoEq (toRadians a) a ∧ geoKey (toRadians a) ≠ geoKey a := by
  refine ⟨(c64_convert a a).2.1, fun hc => ?_⟩
  simp only [geoKey, Prod.mk.injEq] at hc
  rw [(toRadians_alt a).2, h] at hc
  simp at hc

/-- **C64 is violated at the date line and at the poles**: the same place given by the longitudes 180 and -180, or a pole with two longitudes, is not equal,
though the distance is zero. -/
theorem c64_same_place (k : ℝ) (hk : 0 < k) (lat alt l l' : ℝ) :
    (¬ geoEq ⟨lat, 180, alt, false⟩ ⟨lat, -180, alt, false⟩ ∧ Geo.sub (spherical k) ⟨lat, 180, alt, false⟩ ⟨lat, -180, alt, false⟩ = 0) ∧
    (l ≠ l' → ¬ geoEq ⟨90, l, alt, false⟩ ⟨90, l', alt, false⟩ ∧ Geo.sub (spherical k) ⟨90, l, alt, false⟩ ⟨90, l', alt, false⟩ = 0) := by
  have hpi := pi_pos
  refine ⟨⟨?_, ?_⟩, fun h => ⟨?_, ?_⟩⟩
  · rw [c64_geodetic_eq]; simp [Geo.ll]; intro hc; linarith
  · refine ((c60_metric k hk).2.2.1 _ _).2 ?_
    unfold place Geo.toDegrees
    simp only [Bool.false_eq_true, if_false]
    rw [show (-180 : ℝ) * π / 180 = -(180 * π / 180) by ring, cos_neg, sin_neg, show (180 : ℝ) * π / 180 = π by field_simp, sin_pi, neg_zero]
  · rw [c64_geodetic_eq]; simp [Geo.ll]; exact h
  · refine ((c60_metric k hk).2.2.1 _ _).2 ?_
    unfold place Geo.toDegrees
    simp only [Bool.false_eq_true, if_false]
    rw [show (90 : ℝ) * π / 180 = π / 2 by ring, cos_pi_div_two]
    simp

/-- The length of a pair of lengths. -/
theorem pair_triangle (a b c a' b' c' : ℝ) (ha : 0 ≤ a) (ha' : 0 ≤ a') (h : a ≤ b + c) (h' : a' ≤ b' + c') : √(a ^ 2 + a' ^ 2) ≤ √(b ^ 2 + b' ^ 2) + √(c ^ 2 + c' ^ 2) := by
  have h1 := euclid_triangle (b + c, b' + c', 0) (c, c', 0) (0, 0, 0)
  unfold euclid at h1
  simp only [sub_zero, sub_self, zero_pow two_ne_zero, add_zero, add_sub_cancel_right] at h1
  refine le_trans (sqrt_le_sqrt ?_) h1
  have : a ^ 2 ≤ (b + c) ^ 2 := by gcongr
  have : a' ^ 2 ≤ (b' + c') ^ 2 := by gcongr
  linarith

/-- **C64**: `dist_with_altitude` is a metric on places with altitudes, and never less than the distance over ground or in altitude. -/
theorem c64_dist_with_altitude (k c : ℝ) (hk : 0 < k) (hc : 0 < c) (a b d : Geo) :
    distWithAltitude k c a b = distWithAltitude k c b a ∧ (distWithAltitude k c a b = 0 ↔ place a.ll = place b.ll ∧ a.alt = b.alt) ∧
      distWithAltitude k c a d ≤ distWithAltitude k c a b + distWithAltitude k c b d ∧
      arcLen k a.ll b.ll ≤ distWithAltitude k c a b ∧ |a.alt - b.alt| * c ≤ distWithAltitude k c a b := by
  obtain ⟨m1, m2, m3, m4⟩ := c60_metric k hk
  have e : ∀ a b : Geo, distWithAltitude k c a b = √((|a.alt - b.alt| * c) ^ 2 + distance k a.ll b.ll ^ 2) := fun a b => by
    unfold distWithAltitude Geo.sub; simp only [← deg_ll]
  have hp : 0 ≤ |a.alt - b.alt| * c := by positivity
  have hd := (m2 a.ll b.ll).1
  rw [e, e, e, e]
  refine ⟨by rw [m1, abs_sub_comm], ⟨fun h => ?_, fun ⟨h, h'⟩ => ?_⟩, ?_, ?_, ?_⟩
  · rw [sqrt_eq_zero (by positivity)] at h
    have h1 : distance k a.ll b.ll = 0 := by nlinarith [sq_nonneg (|a.alt - b.alt| * c), sq_nonneg (distance k a.ll b.ll)]
    have h2 : |a.alt - b.alt| * c = 0 := by nlinarith [sq_nonneg (|a.alt - b.alt| * c), sq_nonneg (distance k a.ll b.ll)]
    exact ⟨(m3 _ _).1 h1, by rcases mul_eq_zero.1 h2 with h | h; exacts [by linarith [abs_eq_zero.1 h], absurd h hc.ne']⟩
  · rw [(m3 _ _).2 h, h', sub_self, abs_zero]; simp
  · refine pair_triangle _ _ _ _ _ _ (by positivity) (m2 _ _).1 ?_ (m4 _ _ _)
    rw [← add_mul]; gcongr; exact abs_sub_le _ _ _
  · show R * angle _ _ / k ≤ _; rw [← c60_distance]; exact le_sqrt_of_sq_le (by nlinarith [sq_nonneg (|a.alt - b.alt| * c)])
  · exact le_sqrt_of_sq_le (by nlinarith [sq_nonneg (distance k a.ll b.ll)])

theorem straight_dist (k m : ℝ) (a b : Geo) : straightLine k m a b = dist ((R + a.alt * m) • place a.ll) ((R + b.alt * m) • place b.ll) / k := by
  unfold straightLine latlon
  simp only [← deg_ll]
  rw [← c61_lla2ecef, ← c61_lla2ecef]
  have := euclid_eq_dist (lla2ecef a.ll (a.alt * m)) (lla2ecef b.ll (b.alt * m))
  unfold vec
  rw [← this]
  unfold euclid
  congr 2
  ring

/-- **C64**: `straight_line_distance` is the length of the straight line between the points in space, at the distances `R + altitude` from the centre: a metric,
given by the law of cosines, and at altitude zero not longer than the way over ground. -/
theorem c64_straight_line (k m : ℝ) (hk : 0 < k) (a b d : Geo) :
    straightLine k m a b = straightLine k m b a ∧ straightLine k m a d ≤ straightLine k m a b + straightLine k m b d ∧
      (straightLine k m a b * k) ^ 2 = (R + a.alt * m) ^ 2 + (R + b.alt * m) ^ 2 - 2 * (R + a.alt * m) * (R + b.alt * m) * cos (central a.ll b.ll) ∧
      (0 < R + a.alt * m → 0 < R + b.alt * m → m ≠ 0 → (straightLine k m a b = 0 ↔ place a.ll = place b.ll ∧ a.alt = b.alt)) ∧
      (a.alt = 0 → b.alt = 0 → straightLine k m a b ≤ arcLen k a.ll b.ll) := by
  have hR := R_pos
  have hsq : (straightLine k m a b * k) ^ 2 = (R + a.alt * m) ^ 2 + (R + b.alt * m) ^ 2 - 2 * (R + a.alt * m) * (R + b.alt * m) * cos (central a.ll b.ll) := by
    rw [straight_dist, div_mul_cancel₀ _ hk.ne', dist_eq_norm, norm_sub_sq_real, norm_smul, norm_smul, place_norm, place_norm, real_inner_smul_left, real_inner_smul_right, cos_central]
    simp only [norm_eq_abs, mul_one, sq_abs]
    ring
  refine ⟨by rw [straight_dist, straight_dist, dist_comm], ?_, hsq, fun h1 h2 hm => ⟨fun h => ?_, fun ⟨h, h'⟩ => ?_⟩, fun h1 h2 => ?_⟩
  · rw [straight_dist, straight_dist, straight_dist, ← add_div]; gcongr; exact dist_triangle _ _ _
  · rw [straight_dist, div_eq_zero_iff] at h
    rcases h with h | h
    · have he := dist_eq_zero.1 h
      have hn := congrArg norm he
      rw [norm_smul, norm_smul, place_norm, place_norm, norm_eq_abs, norm_eq_abs, abs_of_pos h1, abs_of_pos h2] at hn
      have hal : a.alt * m = b.alt * m := by linarith
      have := mul_right_cancel₀ hm hal
      rw [this] at he
      exact ⟨smul_right_injective _ h2.ne' he, this⟩
    · exact absurd h hk.ne'
  · rw [straight_dist, h, h', dist_self, zero_div]
  · have hc := central_nonneg a.ll b.ll
    have h0 : 0 ≤ straightLine k m a b := by rw [straight_dist]; positivity
    have h3 : straightLine k m a b * k ≤ R * central a.ll b.ll := by
      apply le_of_sq_le_sq _ (by positivity)
      rw [hsq, h1, h2]
      have := one_sub_sq_div_two_le_cos (x := central a.ll b.ll)
      nlinarith [sq_nonneg R]
    unfold arcLen
    rw [le_div_iff₀ hk]; exact h3

/-! ### Iteration and data -/

/-- **C64**: indexing gives the coordinates in their order and raises otherwise, for both kinds of locations. -/
theorem c64_items (a : Geo) (l : Loc) (n : ℕ) (x : ℝ) :
    (cartItem l n = .ok x ↔ [l.x, l.y, l.z][n]? = some x) ∧ (geoItem a n = .ok x ↔ [a.lat, a.lon, a.alt][n]? = some x) := by
  rcases n with _ | _ | _ | n <;> simp [cartItem, geoItem]

example : cartItem ⟨1, 2, 3, false⟩ 1 = .ok 2 := rfl

/-- **C64**: a geodetic location can be unpacked into its latitude, longitude and altitude. A cartesian location can not: `__getitem__` raises a
`ValueError` instead of an `IndexError` at its end. -/
theorem c64_iterate (a : Geo) (l : Loc) (n : ℕ) (hn : 4 ≤ n) : iterate (geoItem a) n 0 = .ok [a.lat, a.lon, a.alt] ∧ iterate (cartItem l) n 0 = .error .value := by
  obtain ⟨n, rfl⟩ : ∃ m, n = m + 4 := ⟨n - 4, by omega⟩
  exact ⟨rfl, rfl⟩

/-- **C64, geodetic data**: equality and `latlon` of the data are those of the locations made from them. -/
theorem c64_geodetic_data (d e : GeoData) : (d.eq e ↔ geoEq d.make e.make) ∧ d.latlon = latlon d.make := by
  constructor
  · unfold GeoData.eq geoEq GeoData.make Geo.toDegrees toRadians degrees
    obtain ⟨l, m, n, rad⟩ := d
    obtain ⟨l', m', n', rad'⟩ := e
    cases rad <;> cases rad' <;> simp [Prod.ext_iff, and_assoc]
  · unfold GeoData.latlon latlon GeoData.make Geo.toDegrees degrees
    cases d.rad <;> rfl

/-- **C64 is violated by cartesian data**: data that are equal make locations that are not, since the unit of the altitude is not compared; and the data are in
altitude units by default, the location is not. -/
theorem c64_cartesian_data (c x y z : ℝ) (h : 0.00001 < |z * c - z|) :
    (∃ d e : CartData, d.eq e ∧ ¬ cartEq c d.make e.make) ∧ ¬ cartEq c (CartData.make { x := x, y := y, z := z }) (plainCartesian x y z) := by
  have key : ¬ cartEq c ⟨x, y, z, true⟩ ⟨x, y, z, false⟩ := by
    unfold cartEq Loc.sub Loc.arr
    simp only [sub_self, zero_pow two_ne_zero, zero_add, if_true, Bool.false_eq_true, if_false]
    rw [sqrt_sq_eq_abs, abs_abs]
    exact not_le.2 h
  exact ⟨⟨⟨x, y, z, true⟩, ⟨x, y, z, false⟩, ⟨rfl, rfl, rfl⟩, key⟩, key⟩

/-- **C64, cartesian data**: the location made from the data has their numbers. -/
theorem c64_cartesian_data_make (d : CartData) : cartKey d.make = (d.x, d.y, d.z, d.altUnits) := rfl

/-- With feet in a world of metres, at 1000. -/
example : ¬ cartEq 0.3048 (CartData.make { x := 0, y := 0, z := 1000 }) (plainCartesian 0 0 1000) := (c64_cartesian_data 0.3048 0 0 1000 (by norm_num)).2

example : geoEq ⟨π / 2, 0, 5, true⟩ ⟨90, 0, 5, false⟩ := by
  rw [c64_geodetic_eq]
  have := pi_pos.ne'
  simp [Geo.ll]
  field_simp; norm_num

end Verif.Locs
