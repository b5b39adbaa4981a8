import Verif.Model.FloatShells
import Verif.Props.FloatDensity
import Verif.Props.Shells

/-!
# C131: rounding in the inertial parameters of hollow boxes, wireframes and hollow spheres
-/

namespace Rigeo

open Spec Matrix

local notation "u" => unitRoundoff

/-- `a'` has a relative error of at most `k` units, and `a` is between `10 ^ -e` and `10 ^ e`. -/
def RelErr (k : ℝ) (e : ℕ) (a a' : ℝ) : Prop := 1 / 10 ^ e ≤ a ∧ a ≤ 10 ^ e ∧ |a' - a| ≤ k * u * a

theorem RelErr.pos {k : ℝ} {e : ℕ} {a a' : ℝ} (h : RelErr k e a a') : 0 < a := lt_of_lt_of_le (by positivity) h.1

theorem relErr_exact {e : ℕ} {a : ℝ} (h1 : 1 / 10 ^ e ≤ a) (h2 : a ≤ 10 ^ e) : RelErr 0 e a a := ⟨h1, h2, by simp⟩

section
variable {fl : ℝ → ℝ} (hfl : IsRounding fl)
include hfl

/-- Rounding adds two units. -/
theorem relErr_fl {k : ℝ} {e : ℕ} {a z : ℝ} (h : RelErr k e a z) (hk0 : 0 ≤ k) (hk : k ≤ 50) (he : e ≤ 140) :
    RelErr (k + 2) e a (fl z) := by
  have hu0 := u_pos
  have hu1 := u_le
  have hu2 : 110 / 10 ^ 18 ≤ u := by unfold unitRoundoff; norm_num
  have ha := h.pos
  have e1 : (1 : ℝ) / 10 ^ 140 ≤ a :=
    le_trans (one_div_le_one_div_of_le (by positivity) (pow_le_pow_right₀ (by norm_num) he)) h.1
  have e2 : a ≤ 10 ^ 140 := h.2.1.trans (pow_le_pow_right₀ (by norm_num) he)
  have hua : 0 < u * a := by positivity
  have hku : k * u ≤ 1 / 2 := by
    have := mul_le_mul hk hu1 hu0.le (by norm_num)
    norm_num at this ⊢
    linarith
  have hz : |z| ≤ 3 / 2 * a := by
    have h1 := abs_sub_abs_le_abs_sub z a
    rw [abs_of_pos ha] at h1
    have h2 := mul_le_mul_of_nonneg_right hku ha.le
    linarith [h.2.2]
  have h1 := fl_near hfl (hz.trans ((mul_le_mul_of_nonneg_left e2 (by norm_num)).trans (by norm_num)) : _ ≤ (10 : ℝ) ^ 150)
  have h2 := mul_le_mul_of_nonneg_left hz hu0.le
  have t : (1 : ℝ) / 10 ^ 200 ≤ u * a / 2 := by
    have h3 := mul_le_mul hu2 e1 (by norm_num) hu0.le
    have h4 : (1 : ℝ) / 10 ^ 200 ≤ 110 / 10 ^ 18 * (1 / 10 ^ 140) / 2 := by norm_num
    linarith
  refine ⟨h.1, h.2.1, ?_⟩
  have e : fl z - a = (fl z - z) + (z - a) := by ring
  rw [e]
  refine (abs_add_le _ _).trans ?_
  linarith [h.2.2]

theorem relErr_add {j k l : ℝ} {e f g : ℕ} {a a' b b' : ℝ} (ha : RelErr j e a a') (hb : RelErr k f b b') (hj : j + 2 ≤ l := by norm_num)
    (hk : k + 2 ≤ l := by norm_num) (he : e + 1 ≤ g := by norm_num) (hf : f + 1 ≤ g := by norm_num) (hl0 : 2 ≤ l := by norm_num)
    (hl : l ≤ 50 := by norm_num) (hg : g ≤ 140 := by norm_num) : RelErr l g (a + b) (fl (a' + b')) := by
  have hu0 := u_pos
  have a0 := ha.pos
  have b0 := hb.pos
  have key : RelErr (l - 2) g (a + b) (a' + b') := by
    have p1 : (10 : ℝ) ^ e ≤ 10 ^ g / 10 := by
      rw [le_div_iff₀ (by norm_num), ← pow_succ]
      exact pow_le_pow_right₀ (by norm_num) he
    have p2 : (10 : ℝ) ^ f ≤ 10 ^ g / 10 := by
      rw [le_div_iff₀ (by norm_num), ← pow_succ]
      exact pow_le_pow_right₀ (by norm_num) hf
    refine ⟨?_, ?_, ?_⟩
    · have := one_div_le_one_div_of_le (by positivity) (pow_le_pow_right₀ (by norm_num : (1 : ℝ) ≤ 10) (by omega : e ≤ g))
      linarith [ha.1]
    · have : (0 : ℝ) < 10 ^ g := by positivity
      linarith [ha.2.1, hb.2.1]
    · have e : a' + b' - (a + b) = (a' - a) + (b' - b) := by ring
      rw [e]
      refine (abs_add_le _ _).trans ?_
      have h1 := mul_le_mul_of_nonneg_right (show j ≤ l - 2 by linarith) (show 0 ≤ u * a by positivity)
      have h2 := mul_le_mul_of_nonneg_right (show k ≤ l - 2 by linarith) (show 0 ≤ u * b by positivity)
      linarith [ha.2.2, hb.2.2]
  have := relErr_fl hfl key (by linarith) (by linarith) hg
  rwa [sub_add_cancel] at this

theorem relErr_mul {j k l : ℝ} {e f g : ℕ} {a a' b b' : ℝ} (ha : RelErr j e a a') (hb : RelErr k f b b')
    (hjk : j + k + 3 ≤ l := by norm_num) (hef : e + f ≤ g := by norm_num) (hj : 0 ≤ j := by norm_num) (hk : 0 ≤ k := by norm_num)
    (hl : l ≤ 50 := by norm_num) (hg : g ≤ 140 := by norm_num) : RelErr l g (a * b) (fl (a' * b')) := by
  have hu0 := u_pos
  have hu1 := u_le
  have a0 := ha.pos
  have b0 := hb.pos
  have key : RelErr (l - 2) g (a * b) (a' * b') := by
    have p : (10 : ℝ) ^ e * 10 ^ f ≤ 10 ^ g := by
      rw [← pow_add]; exact pow_le_pow_right₀ (by norm_num) hef
    refine ⟨?_, ?_, ?_⟩
    · have h1 := mul_le_mul ha.1 hb.1 (by positivity) a0.le
      rw [one_div_mul_one_div] at h1
      exact (one_div_le_one_div_of_le (by positivity) p).trans h1
    · exact (mul_le_mul ha.2.1 hb.2.1 b0.le (by positivity)).trans p
    · have e : a' * b' - a * b = (a' - a) * b + a * (b' - b) + (a' - a) * (b' - b) := by ring
      rw [e]
      refine (abs_add_three _ _ _).trans ?_
      rw [abs_mul, abs_mul, abs_mul, abs_of_pos a0, abs_of_pos b0]
      have h1 := mul_le_mul_of_nonneg_right ha.2.2 b0.le
      have h2 := mul_le_mul_of_nonneg_left hb.2.2 a0.le
      have h3 := mul_le_mul ha.2.2 hb.2.2 (abs_nonneg _) (by positivity)
      have hjku : j * k * u ≤ 1 := by
        have h4 := mul_le_mul (show j ≤ 50 by linarith) (show k ≤ 50 by linarith) hk (by norm_num)
        have h5 := mul_le_mul h4 hu1 hu0.le (by norm_num)
        norm_num at h5
        linarith
      have hab : 0 < u * (a * b) := by positivity
      have h6 := mul_le_mul_of_nonneg_right hjku hab.le
      have h7 := mul_le_mul_of_nonneg_right (show j + k + 1 ≤ l - 2 by linarith) hab.le
      have e1 : j * u * a * (k * u * b) = j * k * u * (u * (a * b)) := by ring
      rw [e1] at h3
      linarith
  have := relErr_fl hfl key (by linarith) (by linarith) hg
  rwa [sub_add_cancel] at this

theorem relErr_div {j k l : ℝ} {e f g : ℕ} {a a' b b' : ℝ} (ha : RelErr j e a a') (hb : RelErr k f b b')
    (hjk : j + k + 3 ≤ l := by norm_num) (hef : e + f ≤ g := by norm_num) (hj : 0 ≤ j := by norm_num) (hk : 0 ≤ k := by norm_num)
    (hl : l ≤ 50 := by norm_num) (hg : g ≤ 140 := by norm_num) : RelErr l g (a / b) (fl (a' / b')) := by
  have hu0 := u_pos
  have hu1 := u_le
  have a0 := ha.pos
  have b0 := hb.pos
  have key : RelErr (l - 2) g (a / b) (a' / b') := by
    have p : (10 : ℝ) ^ e * 10 ^ f ≤ 10 ^ g := by
      rw [← pow_add]; exact pow_le_pow_right₀ (by norm_num) hef
    refine ⟨?_, ?_, ?_⟩
    · have h1 := div_le_div₀ a0.le ha.1 b0 hb.2.1
      rw [div_div] at h1
      exact (one_div_le_one_div_of_le (by positivity) p).trans h1
    · have h1 := div_le_div₀ (by positivity) ha.2.1 (by positivity) hb.1
      rw [div_div_eq_mul_div, div_one] at h1
      exact h1.trans p
    · have hku : k * u ≤ 1 / 10000 := by
        have h5 := mul_le_mul (show k ≤ 50 by linarith) hu1 hu0.le (by norm_num)
        norm_num at h5 ⊢
        linarith
      have hb' : (1 - 1 / 10000) * b ≤ b' := by
        have h1 := (abs_le.mp hb.2.2).1
        have h2 := mul_le_mul_of_nonneg_right hku b0.le
        linarith
      have hb0 : 0 < b' := lt_of_lt_of_le (by positivity) hb'
      have e : a' / b' - a / b = ((a' - a) * b - a * (b' - b)) / (b' * b) := by field_simp; ring
      rw [e, abs_div, abs_of_pos (mul_pos hb0 b0), div_le_iff₀ (mul_pos hb0 b0)]
      refine (abs_sub _ _).trans ?_
      rw [abs_mul, abs_mul, abs_of_pos a0, abs_of_pos b0]
      have h1 := mul_le_mul_of_nonneg_right ha.2.2 b0.le
      have h2 := mul_le_mul_of_nonneg_left hb.2.2 a0.le
      have e1 : (l - 2) * u * (a / b) * (b' * b) = (l - 2) * u * a * b' := by field_simp
      rw [e1]
      have h3 := mul_le_mul_of_nonneg_left hb' (show 0 ≤ (l - 2) * u * a by
        have : 0 ≤ l - 2 := by linarith
        positivity)
      have hab : 0 < u * (a * b) := by positivity
      have h7 := mul_le_mul_of_nonneg_right (show j + k ≤ (l - 2) * (1 - 1 / 10000) by linarith) hab.le
      linarith
  have := relErr_fl hfl key (by linarith) (by linarith) hg
  rwa [sub_add_cancel] at this

/-- The parameters of a box about its center, given the relative error of the three moments. -/
theorem shell_close {b : Box ℝ} {O : Matrix (Fin 3) (Fin 3) ℝ} (hO : NearRotation b.rotation O) {m S : ℝ} (hm1 : 1 / 10 ^ 20 ≤ m)
    (hm2 : m ≤ 10 ^ 20) (hS1 : 1 / 10 ^ 15 ≤ S) (hS2 : S ≤ 10 ^ 15) (hh : ∀ i, 0 < b.halfExtents i ∧ 2 * b.halfExtents i ≤ S)
    (hc : ∀ i, |b.center i| ≤ S) {D D' : Fin 3 → ℝ} (hD : ∀ i, RelErr 28 96 (D i) (D' i)) (hD2 : ∀ i, D i ≤ b.halfExtents i ^ 2)
    {q : IP ℝ} (hq : (IP.centredFloat fl m (Matrix.of fun i j => fl (m * Matrix.diagonal D' i j))).transformFloat fl b.rotation
      b.center q) :
    q.mass = m ∧ (∀ i, |q.com i - b.center i| ≤ 160 * u * S) ∧
      ∀ i j, |q.H i j - (O * (m • Matrix.diagonal D) * Oᵀ + m • outer b.center b.center) i j| ≤ 2100 * u * (m * S ^ 2) := by
  have hu0 := u_pos
  have hS0 : 0 < S := lt_of_lt_of_le (by norm_num) hS1
  have hm0 : 0 < m := lt_of_lt_of_le (by norm_num) hm1
  have hB0 : 0 < m * S ^ 2 := by positivity
  have hmD : ∀ i, m * D i ≤ m * S ^ 2 / 4 := fun i => by
    have h1 : (2 * b.halfExtents i) ^ 2 ≤ S ^ 2 := pow_le_pow_left₀ (by linarith [(hh i).1]) (hh i).2 2
    have h2 : D i ≤ S ^ 2 / 4 := by linarith [hD2 i]
    have := mul_le_mul_of_nonneg_left h2 hm0.le
    linarith
  have hmD0 : ∀ i, 0 < m * D i := fun i => mul_pos hm0 (hD i).pos
  have hDe : m • Matrix.diagonal D = Matrix.diagonal fun i => m * D i := by
    rw [← Matrix.diagonal_smul]; rfl
  rw [hDe]
  refine density_close hfl hO hm1 hm2 hS1 hS2 hc (fun i j => ?_) (fun i => ?_) hq
  · show |fl (m * Matrix.diagonal D' i j) - _| ≤ _
    by_cases hij : i = j
    · subst hij
      rw [Matrix.diagonal_apply_eq, Matrix.diagonal_apply_eq]
      have h1 := (relErr_mul hfl (l := 31) (g := 116) (relErr_exact (e := 20) hm1 hm2) (hD i)).2.2
      have h2 := mul_le_mul_of_nonneg_left (hmD i) hu0.le
      have h3 : 0 < u * (m * S ^ 2) := by positivity
      linarith
    · rw [Matrix.diagonal_apply_ne _ hij, Matrix.diagonal_apply_ne _ hij, mul_zero, fl_zero hfl, sub_zero, abs_zero]
      positivity
  · rw [abs_of_pos (hmD0 i)]
    linarith [hmD i]

omit hfl in
theorem relErr_square {sq : ℝ → ℝ} (hsq : ∀ x, 1 / 10 ^ 15 ≤ x → x ≤ 10 ^ 15 → |sq x - x ^ 2| ≤ 2 * u * x ^ 2) {x : ℝ}
    (h1 : 1 / 10 ^ 15 ≤ x) (h2 : x ≤ 10 ^ 15) : RelErr 2 30 (x ^ 2) (sq x) := by
  have h0 : 0 < x := lt_of_lt_of_le (by norm_num) h1
  refine ⟨?_, ?_, hsq _ h1 h2⟩
  · have := pow_le_pow_left₀ (by norm_num) h1 2
    norm_num at this ⊢
    linarith
  · have := pow_le_pow_left₀ h0.le h2 2
    norm_num at this ⊢
    linarith

/-- The last two operations of a moment. -/
theorem relErr_moment {k l : ℝ} {x x' N N' d d' : ℝ} (hx : RelErr 2 30 x x') (hN : RelErr k 33 N N') (hd : RelErr l 33 d d') (hk0 : 0 ≤ k)
    (hk : k ≤ 10) (hl0 : 0 ≤ l) (hl : l ≤ 10) : RelErr 28 96 (x * N / d) (fl (fl (x' * N') / d')) :=
  relErr_div hfl (relErr_mul hfl (l := 15) (g := 63) hx hN (by linarith) (by norm_num) (by norm_num) hk0) hd (by linarith) (by norm_num)
    (by norm_num) hl0

/-- C131: `hollow_density_params` of a box with rounding: the mass is exact, the center of mass and the second moments are those of a mass
spread evenly over the faces, up to rounding. `O` is the rotation or reflection that the stored matrix stands for. -/
theorem C131_hollow {b : Box ℝ} {O : Matrix (Fin 3) (Fin 3) ℝ} (hO : NearRotation b.rotation O) {m S : ℝ} (hm1 : 1 / 10 ^ 20 ≤ m)
    (hm2 : m ≤ 10 ^ 20) (hS1 : 1 / 10 ^ 15 ≤ S) (hS2 : S ≤ 10 ^ 15)
    (hh : ∀ i, 1 / 10 ^ 15 ≤ b.halfExtents i ∧ 2 * b.halfExtents i ≤ S) (hc : ∀ i, |b.center i| ≤ S) {sq : ℝ → ℝ}
    (hsq : ∀ x, 1 / 10 ^ 15 ≤ x → x ≤ 10 ^ 15 → |sq x - x ^ 2| ≤ 2 * (2 : ℝ) ^ (-53 : ℤ) * x ^ 2) {q : IP ℝ}
    (hq : b.hollowDensityFloat fl sq m q) :
    ∃ (h : Fin 3 → ℝ) (H : Matrix (Fin 3) (Fin 3) ℝ),
      HasMoments ((evenly m (boxFaces b.halfExtents)).map (rigid O b.center)) m h H ∧ q.mass = m ∧
      (∀ i, |q.com i - h i / m| ≤ 160 * (2 : ℝ) ^ (-53 : ℤ) * S) ∧ ∀ i j, |q.H i j - H i j| ≤ 2100 * (2 : ℝ) ^ (-53 : ℤ) * (m * S ^ 2) := by
  have hu : (2 : ℝ) ^ (-53 : ℤ) = u := by unfold unitRoundoff; norm_num
  rw [hu] at hsq
  have hm0 : 0 < m := lt_of_lt_of_le (by norm_num) hm1
  have hpos : ∀ i, 0 < b.halfExtents i := fun i => lt_of_lt_of_le (by norm_num) (hh i).1
  have hle : ∀ i, b.halfExtents i ≤ 10 ^ 15 := fun i => by linarith [hpos i, (hh i).2]
  have h0 := hpos 0
  have h1 := hpos 1
  have h2 := hpos 2
  have ex : ∀ i, RelErr 0 15 (b.halfExtents i) (b.halfExtents i) := fun i => relErr_exact (hh i).1 (hle i)
  have three : RelErr 0 1 3 3 := relErr_exact (by norm_num) (by norm_num)
  have es : ∀ i, RelErr 2 30 (b.halfExtents i ^ 2) (sq (b.halfExtents i)) := fun i => relErr_square hsq (hh i).1 (hle i)
  have hA : b.halfExtents 0 * b.halfExtents 1 + b.halfExtents 0 * b.halfExtents 2 + b.halfExtents 1 * b.halfExtents 2 ≠ 0 := by
    positivity
  have hA' : (boxFaces b.halfExtents).real Set.univ ≠ 0 := fun h => by
    obtain ⟨i, -, -, h0, -⟩ := ((C58_area b.halfExtents fun i => (hpos i).le).1).mp h
    exact (hpos i).ne' h0
  obtain ⟨p, hp, hmom⟩ := C58_hollow ⟨b.halfExtents, O, b.center⟩ (fun i => (hpos i).le) m hm0 hA'
  rw [Box.hollowDensityParams_ok (⟨b.halfExtents, O, b.center⟩ : Box ℝ) m hm0 hA] at hp
  injection hp with hp
  subst hp
  have pr : ∀ i j, RelErr 3 30 (b.halfExtents i * b.halfExtents j) (fl (b.halfExtents i * b.halfExtents j)) := fun i j =>
    relErr_mul hfl (ex i) (ex j)
  have pr3 : ∀ i j, RelErr 6 31 (3 * b.halfExtents i * b.halfExtents j) (fl (fl (3 * b.halfExtents i) * b.halfExtents j)) := fun i j =>
    relErr_mul hfl (relErr_mul hfl (l := 3) (g := 16) three (ex i)) (ex j)
  have dd := relErr_mul hfl (l := 10) (g := 33) three
    (relErr_add hfl (l := 7) (g := 32) (relErr_add hfl (l := 5) (g := 31) (pr 0 1) (pr 0 2)) (pr 1 2))
  have n0 := relErr_add hfl (l := 8) (g := 33) (relErr_add hfl (l := 5) (g := 31) (pr 0 1) (pr 0 2)) (pr3 1 2)
  have n1 := relErr_add hfl (l := 10) (g := 33) (relErr_add hfl (l := 8) (g := 32) (pr 0 1) (pr3 0 2)) (pr 1 2)
  have n2 := relErr_add hfl (l := 10) (g := 33) (relErr_add hfl (l := 8) (g := 32) (pr3 0 1) (pr 0 2)) (pr 1 2)
  have r0 := relErr_moment hfl (es 0) n0 dd (by norm_num) (by norm_num) (by norm_num) (by norm_num)
  have r1 := relErr_moment hfl (es 1) n1 dd (by norm_num) (by norm_num) (by norm_num) (by norm_num)
  have r2 := relErr_moment hfl (es 2) n2 dd (by norm_num) (by norm_num) (by norm_num) (by norm_num)
  have key := shell_close hfl hO hm1 hm2 hS1 hS2 (fun i => ⟨hpos i, (hh i).2⟩) hc (D := ![_, _, _]) (D' := ![_, _, _])
    (fun i => by
      fin_cases i
      · exact r0
      · exact r1
      · exact r2)
    (fun i => by
      have p01 := mul_pos h0 h1
      have p02 := mul_pos h0 h2
      have p12 := mul_pos h1 h2
      have le : ∀ (x N d : ℝ), 0 < d → N ≤ d → x ^ 2 * N / d ≤ x ^ 2 := fun x N d hd hN => by
        rw [div_le_iff₀ hd]
        exact mul_le_mul_of_nonneg_left hN (sq_nonneg x)
      fin_cases i
      · exact le _ _ _ dd.pos (by linarith)
      · exact le _ _ _ dd.pos (by linarith)
      · exact le _ _ _ dd.pos (by linarith)) hq.2
  rw [hu]
  refine ⟨_, _, hmom, key.1, fun i => ?_, fun i j => key.2.2 i j⟩
  have : (m * b.center i) / m = b.center i := by field_simp
  show |q.com i - (m * b.center i) / m| ≤ _
  rw [this]; exact key.2.1 i

/-- C131: the same for `wireframe_density_params` and a mass spread evenly over the edges. -/
theorem C131_wireframe {b : Box ℝ} {O : Matrix (Fin 3) (Fin 3) ℝ} (hO : NearRotation b.rotation O) {m S : ℝ} (hm1 : 1 / 10 ^ 20 ≤ m)
    (hm2 : m ≤ 10 ^ 20) (hS1 : 1 / 10 ^ 15 ≤ S) (hS2 : S ≤ 10 ^ 15)
    (hh : ∀ i, 1 / 10 ^ 15 ≤ b.halfExtents i ∧ 2 * b.halfExtents i ≤ S) (hc : ∀ i, |b.center i| ≤ S) {sq : ℝ → ℝ}
    (hsq : ∀ x, 1 / 10 ^ 15 ≤ x → x ≤ 10 ^ 15 → |sq x - x ^ 2| ≤ 2 * (2 : ℝ) ^ (-53 : ℤ) * x ^ 2) {q : IP ℝ}
    (hq : b.wireframeDensityFloat fl sq m q) :
    ∃ (h : Fin 3 → ℝ) (H : Matrix (Fin 3) (Fin 3) ℝ),
      HasMoments ((evenly m (boxEdges b.halfExtents)).map (rigid O b.center)) m h H ∧ q.mass = m ∧
      (∀ i, |q.com i - h i / m| ≤ 160 * (2 : ℝ) ^ (-53 : ℤ) * S) ∧ ∀ i j, |q.H i j - H i j| ≤ 2100 * (2 : ℝ) ^ (-53 : ℤ) * (m * S ^ 2) := by
  have hu : (2 : ℝ) ^ (-53 : ℤ) = u := by unfold unitRoundoff; norm_num
  rw [hu] at hsq
  have hm0 : 0 < m := lt_of_lt_of_le (by norm_num) hm1
  have hpos : ∀ i, 0 < b.halfExtents i := fun i => lt_of_lt_of_le (by norm_num) (hh i).1
  have hle : ∀ i, b.halfExtents i ≤ 10 ^ 15 := fun i => by linarith [hpos i, (hh i).2]
  have h0 := hpos 0
  have h1 := hpos 1
  have h2 := hpos 2
  have ex : ∀ i, RelErr 0 15 (b.halfExtents i) (b.halfExtents i) := fun i => relErr_exact (hh i).1 (hle i)
  have three : RelErr 0 1 3 3 := relErr_exact (by norm_num) (by norm_num)
  have es : ∀ i, RelErr 2 30 (b.halfExtents i ^ 2) (sq (b.halfExtents i)) := fun i => relErr_square hsq (hh i).1 (hle i)
  have hA : b.halfExtents 0 + b.halfExtents 1 + b.halfExtents 2 ≠ 0 := by positivity
  have hA' : (boxEdges b.halfExtents).real Set.univ ≠ 0 := fun h =>
    h0.ne' (((C58_area b.halfExtents fun i => (hpos i).le).2).mp h 0)
  obtain ⟨p, hp, hmom⟩ := C58_wireframe ⟨b.halfExtents, O, b.center⟩ (fun i => (hpos i).le) m hm0 hA'
  rw [Box.wireframeDensityParams_ok (⟨b.halfExtents, O, b.center⟩ : Box ℝ) m hm0 hA] at hp
  injection hp with hp
  subst hp
  have th : ∀ i, RelErr 3 16 (b.halfExtents i / 3) (fl (b.halfExtents i / 3)) := fun i => relErr_div hfl (ex i) three
  have dd := relErr_add hfl (l := 4) (g := 33) (relErr_add hfl (l := 2) (g := 16) (ex 0) (ex 1)) (ex 2)
  have n0 := relErr_add hfl (l := 7) (g := 33) (relErr_add hfl (l := 5) (g := 17) (th 0) (ex 1)) (ex 2)
  have n1 := relErr_add hfl (l := 7) (g := 33) (relErr_add hfl (l := 5) (g := 17) (ex 0) (th 1)) (ex 2)
  have n2 := relErr_add hfl (l := 5) (g := 33) (relErr_add hfl (l := 2) (g := 16) (ex 0) (ex 1)) (th 2)
  have r0 := relErr_moment hfl (es 0) n0 dd (by norm_num) (by norm_num) (by norm_num) (by norm_num)
  have r1 := relErr_moment hfl (es 1) n1 dd (by norm_num) (by norm_num) (by norm_num) (by norm_num)
  have r2 := relErr_moment hfl (es 2) n2 dd (by norm_num) (by norm_num) (by norm_num) (by norm_num)
  have key := shell_close hfl hO hm1 hm2 hS1 hS2 (fun i => ⟨hpos i, (hh i).2⟩) hc (D := ![_, _, _]) (D' := ![_, _, _])
    (fun i => by
      fin_cases i
      · exact r0
      · exact r1
      · exact r2)
    (fun i => by
      have le : ∀ (x N d : ℝ), 0 < d → N ≤ d → x ^ 2 * N / d ≤ x ^ 2 := fun x N d hd hN => by
        rw [div_le_iff₀ hd]
        exact mul_le_mul_of_nonneg_left hN (sq_nonneg x)
      fin_cases i
      · exact le _ _ _ dd.pos (by linarith)
      · exact le _ _ _ dd.pos (by linarith)
      · exact le _ _ _ dd.pos (by linarith)) hq.2
  rw [hu]
  refine ⟨_, _, hmom, key.1, fun i => ?_, fun i j => key.2.2 i j⟩
  have : (m * b.center i) / m = b.center i := by field_simp
  show |q.com i - (m * b.center i) / m| ≤ _
  rw [this]; exact key.2.1 i

/-- The same for the formula of hollow ellipsoids: `p` are the parameters without rounding. -/
theorem ellipsoid_shell_close {e : Ellipsoid ℝ 3} {O : Matrix (Fin 3) (Fin 3) ℝ} (hO : NearRotation e.rotation O) {m S : ℝ}
    (hm1 : 1 / 10 ^ 20 ≤ m) (hm2 : m ≤ 10 ^ 20) (hS1 : 1 / 10 ^ 15 ≤ S) (hS2 : S ≤ 10 ^ 15)
    (hh : ∀ i, 1 / 10 ^ 15 ≤ e.halfExtents i ∧ 2 * e.halfExtents i ≤ S) (hc : ∀ i, |e.center i| ≤ S) {sq : ℝ → ℝ}
    (hsq : ∀ x, 1 / 10 ^ 15 ≤ x → x ≤ 10 ^ 15 → |sq x - x ^ 2| ≤ 2 * (2 : ℝ) ^ (-53 : ℤ) * x ^ 2) {q : IP ℝ}
    (hq : e.hollowDensityFloat fl sq m q) {p : IP ℝ} (hp : (⟨e.halfExtents, O, e.center⟩ : Ellipsoid ℝ 3).hollowDensityParams m = .ok p) :
    p.mass = m ∧ q.mass = m ∧ (∀ i, |q.com i - p.h i / m| ≤ 160 * (2 : ℝ) ^ (-53 : ℤ) * S) ∧
      ∀ i j, |q.H i j - p.H i j| ≤ 2100 * (2 : ℝ) ^ (-53 : ℤ) * (m * S ^ 2) := by
  have hu : (2 : ℝ) ^ (-53 : ℤ) = u := by unfold unitRoundoff; norm_num
  rw [hu] at hsq
  have hm0 : 0 < m := lt_of_lt_of_le (by norm_num) hm1
  have hpos : ∀ i, 0 < e.halfExtents i := fun i => lt_of_lt_of_le (by norm_num) (hh i).1
  have hle : ∀ i, e.halfExtents i ≤ 10 ^ 15 := fun i => by linarith [hpos i, (hh i).2]
  have h0 := hpos 0
  have h1 := hpos 1
  have h2 := hpos 2
  have ex : ∀ i, RelErr 0 15 (e.halfExtents i) (e.halfExtents i) := fun i => relErr_exact (hh i).1 (hle i)
  have three : RelErr 0 1 3 3 := relErr_exact (by norm_num) (by norm_num)
  have es : ∀ i, RelErr 2 30 (e.halfExtents i ^ 2) (sq (e.halfExtents i)) := fun i => relErr_square hsq (hh i).1 (hle i)
  have hA : e.halfExtents 0 * e.halfExtents 1 + e.halfExtents 0 * e.halfExtents 2 + e.halfExtents 1 * e.halfExtents 2 ≠ 0 := by
    positivity
  have five : RelErr 0 1 5 5 := relErr_exact (by norm_num) (by norm_num)
  rw [Ellipsoid.hollowDensityParams_ok (⟨e.halfExtents, O, e.center⟩ : Ellipsoid ℝ 3) m hm0 hA] at hp
  injection hp with hp
  subst hp
  have pr : ∀ i j, RelErr 3 30 (e.halfExtents i * e.halfExtents j) (fl (e.halfExtents i * e.halfExtents j)) := fun i j =>
    relErr_mul hfl (ex i) (ex j)
  have pr3 : ∀ i j, RelErr 6 31 (3 * e.halfExtents i * e.halfExtents j) (fl (fl (3 * e.halfExtents i) * e.halfExtents j)) := fun i j =>
    relErr_mul hfl (relErr_mul hfl (l := 3) (g := 16) three (ex i)) (ex j)
  have dd := relErr_mul hfl (l := 10) (g := 33) five
    (relErr_add hfl (l := 7) (g := 32) (relErr_add hfl (l := 5) (g := 31) (pr 0 1) (pr 0 2)) (pr 1 2))
  have n0 := relErr_add hfl (l := 8) (g := 33) (relErr_add hfl (l := 5) (g := 31) (pr 0 1) (pr 0 2)) (pr3 1 2)
  have n1 := relErr_add hfl (l := 10) (g := 33) (relErr_add hfl (l := 8) (g := 32) (pr 0 1) (pr3 0 2)) (pr 1 2)
  have n2 := relErr_add hfl (l := 10) (g := 33) (relErr_add hfl (l := 8) (g := 32) (pr3 0 1) (pr 0 2)) (pr 1 2)
  have r0 := relErr_moment hfl (es 0) n0 dd (by norm_num) (by norm_num) (by norm_num) (by norm_num)
  have r1 := relErr_moment hfl (es 1) n1 dd (by norm_num) (by norm_num) (by norm_num) (by norm_num)
  have r2 := relErr_moment hfl (es 2) n2 dd (by norm_num) (by norm_num) (by norm_num) (by norm_num)
  have key := shell_close hfl (b := ⟨e.halfExtents, e.rotation, e.center⟩) hO hm1 hm2 hS1 hS2 (fun i => ⟨hpos i, (hh i).2⟩) hc (D := ![_, _, _]) (D' := ![_, _, _])
    (fun i => by
      fin_cases i
      · exact r0
      · exact r1
      · exact r2)
    (fun i => by
      have p01 := mul_pos h0 h1
      have p02 := mul_pos h0 h2
      have p12 := mul_pos h1 h2
      have le : ∀ (x N d : ℝ), 0 < d → N ≤ d → x ^ 2 * N / d ≤ x ^ 2 := fun x N d hd hN => by
        rw [div_le_iff₀ hd]
        exact mul_le_mul_of_nonneg_left hN (sq_nonneg x)
      fin_cases i
      · exact le _ _ _ dd.pos (by linarith)
      · exact le _ _ _ dd.pos (by linarith)
      · exact le _ _ _ dd.pos (by linarith)) hq.2
  rw [hu]
  refine ⟨rfl, key.1, fun i => ?_, fun i j => key.2.2 i j⟩
  have : (m * e.center i) / m = e.center i := by field_simp
  show |q.com i - (m * e.center i) / m| ≤ _
  rw [this]; exact key.2.1 i

/-- C131: `hollow_density_params` of a sphere with rounding: as for boxes, with any distribution `μ` of the mass on the sphere that is
invariant under rotations. For other ellipsoids the formula is not that of their surface even without rounding. -/
theorem C131_sphere {r : ℝ} {R O : Matrix (Fin 3) (Fin 3) ℝ} {c : Fin 3 → ℝ} (hO : NearRotation R O) {m S : ℝ}
    (hm1 : 1 / 10 ^ 20 ≤ m) (hm2 : m ≤ 10 ^ 20) (hS1 : 1 / 10 ^ 15 ≤ S) (hS2 : S ≤ 10 ^ 15) (hr : 1 / 10 ^ 15 ≤ r) (hr2 : 2 * r ≤ S)
    (hc : ∀ i, |c i| ≤ S) {sq : ℝ → ℝ}
    (hsq : ∀ x, 1 / 10 ^ 15 ≤ x → x ≤ 10 ^ 15 → |sq x - x ^ 2| ≤ 2 * (2 : ℝ) ^ (-53 : ℤ) * x ^ 2)
    {μ : MeasureTheory.Measure (Fin 3 → ℝ)} [MeasureTheory.IsFiniteMeasure μ] (hmass : μ.real Set.univ = m)
    (hcar : CarriedBy μ {p | p ⬝ᵥ p = r ^ 2})
    (hinv : ∀ Q : Matrix (Fin 3) (Fin 3) ℝ, Orthogonal Q → μ.map (fun p => Q *ᵥ p) = μ) {q : IP ℝ}
    (hq : (⟨fun _ => r, R, c⟩ : Ellipsoid ℝ 3).hollowDensityFloat fl sq m q) :
    ∃ (h : Fin 3 → ℝ) (H : Matrix (Fin 3) (Fin 3) ℝ), HasMoments (μ.map fun p => p + c) m h H ∧ q.mass = m ∧
      (∀ i, |q.com i - h i / m| ≤ 160 * (2 : ℝ) ^ (-53 : ℤ) * S) ∧ ∀ i j, |q.H i j - H i j| ≤ 2100 * (2 : ℝ) ^ (-53 : ℤ) * (m * S ^ 2) := by
  have hm0 : 0 < m := lt_of_lt_of_le (by norm_num) hm1
  have hr0 : 0 < r := lt_of_lt_of_le (by norm_num) hr
  obtain ⟨p, hp, hmom⟩ := C58_sphere_shell r hr0 O hO.1 c m hm0 μ hmass hcar hinv
  obtain ⟨k1, k2, k3, k4⟩ := ellipsoid_shell_close hfl (e := ⟨fun _ => r, R, c⟩) hO hm1 hm2 hS1 hS2 (fun _ => ⟨hr, hr2⟩) hc hsq hq hp
  rw [k1] at hmom
  exact ⟨_, _, hmom, k2, k3, k4⟩

omit hfl in
/-- C131: there are such parameters for every positive mass, whatever the rounding. -/
theorem C131_result (b : Box ℝ) (e : Ellipsoid ℝ 3) (sq : ℝ → ℝ) {m : ℝ} (hm : 0 < m) :
    (∃ q, b.hollowDensityFloat fl sq m q) ∧ (∃ q, b.wireframeDensityFloat fl sq m q) ∧
      ∃ q, e.hollowDensityFloat fl sq m q := by
  have step : ∀ (p : IP ℝ) (R : Matrix (Fin 3) (Fin 3) ℝ) (t : Fin 3 → ℝ), ∃ q, p.transformFloat fl R t q := fun p R t => by
    obtain ⟨q, q', hq, -⟩ := C123_result (fl := fl) p [⟨R, t⟩]
    exact ⟨q', hq⟩
  obtain ⟨q1, h1⟩ := step _ b.rotation b.center
  obtain ⟨q2, h2⟩ := step _ b.rotation b.center
  obtain ⟨q3, h3⟩ := step _ e.rotation e.center
  exact ⟨⟨q1, hm, h1⟩, ⟨q2, hm, h2⟩, q3, hm, h3⟩

end

/-! ### The hypotheses can be met -/

/-- A box in another pose, and an exact square. -/
example : ∃ (b : Box ℝ) (O : Matrix (Fin 3) (Fin 3) ℝ), NearRotation b.rotation O ∧ O ≠ 1 ∧
    (∀ i, 1 / 10 ^ 15 ≤ b.halfExtents i ∧ 2 * b.halfExtents i ≤ 6) ∧ (∀ i, |b.center i| ≤ 6) ∧
    ∀ x : ℝ, 1 / 10 ^ 15 ≤ x → x ≤ 10 ^ 15 → |x ^ 2 - x ^ 2| ≤ 2 * (2 : ℝ) ^ (-53 : ℤ) * x ^ 2 := by
  let Q : Matrix (Fin 3) (Fin 3) ℝ := !![1, 0, 0; 0, 0, -1; 0, 1, 0]
  have hQ : Orthogonal Q := by
    unfold Orthogonal
    ext i j
    rw [Matrix.mul_apply, Fin.sum_univ_three]
    fin_cases i <;> fin_cases j <;> simp [Q]
  let b : Box ℝ := ⟨![1, 2, 3], Q, ![0, 0, 4]⟩
  refine ⟨b, Q, ⟨hQ, fun i j => by simp [b]⟩, ?_, ?_, ?_, ?_⟩
  · intro h
    have := congrFun (congrFun h 1) 1
    simp [Q] at this
  · intro i
    show (1 : ℝ) / 10 ^ 15 ≤ (![1, 2, 3] : Fin 3 → ℝ) i ∧ 2 * (![1, 2, 3] : Fin 3 → ℝ) i ≤ 6
    fin_cases i <;> norm_num
  · intro i
    show |(![0, 0, 4] : Fin 3 → ℝ) i| ≤ 6
    fin_cases i <;> norm_num
  · intro x _ _
    rw [sub_self, abs_zero]
    positivity

/-- A distribution on a sphere as in `C131_sphere`. -/
example : ∃ μ : MeasureTheory.Measure (Fin 3 → ℝ), MeasureTheory.IsFiniteMeasure μ ∧ μ.real Set.univ = 5 ∧
    CarriedBy μ {p | p ⬝ᵥ p = (2 : ℝ) ^ 2} ∧ ∀ Q : Matrix (Fin 3) (Fin 3) ℝ, Orthogonal Q → μ.map (fun p => Q *ᵥ p) = μ :=
  exists_sphere_shell 2 (by norm_num) 5 (by norm_num)

end Rigeo
