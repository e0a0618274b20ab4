import Verif.PhaseField.EulerOde
import Verif.PhaseField.AllenCahnBounds

/-!
# The grain-growth equations have one solution, and the explicit Euler steps converge to it (C149)
-/
namespace Verif.PhaseField.Ode
open Set Verif Verif.Mesh

variable {m d : ℕ}

/-! ## Specification -/

/-- `y` solves the grain-growth equations `∂η/∂t = state_rhs(η, T(t))` in every cell on `[0, Te]`. -/
def Grows (th : ℝ → ℝ) (P : PfArgs m d) (T : ℝ → ℕ → ℝ) (Te : ℝ) (y : ℝ → ℕ → Fin m → ℝ) : Prop :=
  ∀ t ∈ Icc 0 Te, ∀ n < P.N, ∀ o, HasDerivWithinAt (fun s => y s n o) (stateRhs th P (T t) (y t) n o) (Icc 0 Te) t

/-- Isotropic material with the physical signs of the constants; a temperature history that is positive and, after the cap at 2000 (allen_cahn.py 56), changes at a bounded rate. -/
structure Physical (th : ℝ → ℝ) (P : PfArgs m d) (T : ℝ → ℕ → ℝ) (Te Tmin V : ℝ) : Prop where
  th_range : ∀ x, -1 ≤ th x ∧ th x ≤ 1
  th_lip : ∀ x y, |th x - th y| ≤ |x - y|
  iso : ¬ P.anisotropy > 0
  m_g : 0 ≤ P.m_g
  kappa : 0 ≤ P.kappa_g
  ad_hoc : 0 < P.ad_hoc
  L0 : 0 ≤ P.L0
  Qg : 0 ≤ P.Qg
  gas : 0 < P.gas_const
  liq : 0 < P.T_liquidus
  Tmin_pos : 0 < Tmin
  V_nonneg : 0 ≤ V
  warm : ∀ t ∈ Icc 0 Te, ∀ n < P.N, Tmin ≤ capT (T t n)
  slow : ∀ s ∈ Icc 0 Te, ∀ t ∈ Icc 0 Te, ∀ n < P.N, |capT (T s n) - capT (T t n)| ≤ V * |s - t|

/-! ## The right-hand side -/

/-- The bracket of the right-hand side in one cell. -/
noncomputable def core (α κ wx wy wz q : ℝ) (o : Fin m) (e : Fin m → ℝ) (lx ly lz : ℝ) : ℝ :=
  α * (-3 * e o ^ 3 - e o + 4 * ∑ p, e o * e p ^ 2 + 2 * q * e o) + -(κ * (lx * wx + ly * wy + lz * wz))

theorem rhs_eq (th : ℝ → ℝ) (P : PfArgs m d) (hA : ¬ P.anisotropy > 0) (T : ℕ → ℝ) (eta : ℕ → Fin m → ℝ) {k j i : ℕ} (hk : k < P.Nz) (hj : j < P.Ny) (hi : i < P.Nx) (o : Fin m) :
    stateRhs th P T eta (etaNo P k j i) o = -LgOf P T (etaNo P k j i) * core (P.m_g / P.ad_hoc) (P.kappa_g * P.ad_hoc) (1 / P.hx ^ 2) (1 / P.hy ^ 2) (1 / P.hz ^ 2)
      ((1 - zetaOf th P T (etaNo P k j i)) ^ 2) o (eta (etaNo P k j i)) (lap1 P.Nx (fun i => eta (etaNo P k j i) o) i) (lap1 P.Ny (fun j => eta (etaNo P k j i) o) j)
      (lap1 P.Nz (fun k => eta (etaNo P k j i) o) k) := by
  simp only [stateRhs]
  rw [localEnergyGrad_eq P eta _ (n := etaNo P k j i) (idx3_lt hk hj hi) o]
  obtain ⟨a, ha1, -, hlap⟩ := laplaceTerm_get P eta hk hj hi o
  rw [hlap, ha1 hA]
  unfold localGradExplicit core
  rw [← Finset.mul_sum]
  ring

theorem lap1_diff {N : ℕ} {g g' : ℕ → ℝ} {D : ℝ} {i : ℕ} (hi : i < N) (h : ∀ j < N, |g j - g' j| ≤ D) : |lap1 N g i - lap1 N g' i| ≤ 4 * D := by
  have h0 := abs_le.mp (h i hi)
  have hD : 0 ≤ D := (abs_nonneg _).trans (h i hi)
  unfold lap1
  split_ifs with h1 h2 h2
  · have a := abs_le.mp (h _ h1); have b := abs_le.mp (h (i - 1) (by omega)); rw [abs_le]; constructor <;> linarith [a.1, a.2, b.1, b.2, h0.1, h0.2]
  · have a := abs_le.mp (h _ h1); rw [abs_le]; constructor <;> linarith [a.1, a.2, h0.1, h0.2]
  · have b := abs_le.mp (h (i - 1) (by omega)); rw [abs_le]; constructor <;> linarith [b.1, b.2, h0.1, h0.2]
  · rw [abs_le]; constructor <;> linarith

theorem prod_diff {x y a b R D : ℝ} (hx : |x| ≤ R) (hy : |y| ≤ R) (ha : |a| ≤ R) (hb : |b| ≤ R) (hxy : |x - y| ≤ D) (hab : |a - b| ≤ D) : |x * a ^ 2 - y * b ^ 2| ≤ 3 * R ^ 2 * D := by
  have hR : 0 ≤ R := (abs_nonneg _).trans hx
  have hD : 0 ≤ D := (abs_nonneg _).trans hxy
  have e : x * a ^ 2 - y * b ^ 2 = (x - y) * (a * a) + y * ((a - b) * a) + y * (b * (a - b)) := by ring
  rw [e]
  refine (abs_add_le _ _).trans ((add_le_add (abs_add_le _ _) le_rfl).trans ?_)
  simp only [abs_mul]
  have p1 : |x - y| * (|a| * |a|) ≤ D * (R * R) := by gcongr
  have p2 : |y| * (|a - b| * |a|) ≤ R * (D * R) := by gcongr
  have p3 : |y| * (|b| * |a - b|) ≤ R * (R * D) := by gcongr
  linarith

/-- The Lipschitz constant of the bracket on `[-R, R]`. -/
noncomputable def K0 (P : PfArgs m d) (R : ℝ) : ℝ := P.m_g / P.ad_hoc * (12 * m * R ^ 2 + 9 * R ^ 2 + 3) + 4 * (P.kappa_g * P.ad_hoc * (1 / P.hx ^ 2 + 1 / P.hy ^ 2 + 1 / P.hz ^ 2))

theorem core_lip {α κ wx wy wz q R D : ℝ} (hα : 0 ≤ α) (hκ : 0 ≤ κ) (hx : 0 ≤ wx) (hy : 0 ≤ wy) (hz : 0 ≤ wz) (hq : 0 ≤ q) (hq1 : q ≤ 1) (o : Fin m) {e e' : Fin m → ℝ} {lx ly lz lx' ly' lz' : ℝ}
    (he : ∀ p, |e p| ≤ R) (he' : ∀ p, |e' p| ≤ R) (hd : ∀ p, |e p - e' p| ≤ D) (h1 : |lx - lx'| ≤ 4 * D) (h2 : |ly - ly'| ≤ 4 * D) (h3 : |lz - lz'| ≤ 4 * D) :
    |core α κ wx wy wz q o e lx ly lz - core α κ wx wy wz q o e' lx' ly' lz'| ≤ (α * (12 * m * R ^ 2 + 9 * R ^ 2 + 3) + 4 * (κ * (wx + wy + wz))) * D := by
  have hs : |∑ p, (e o * e p ^ 2 - e' o * e' p ^ 2)| ≤ m * (3 * R ^ 2 * D) := by
    refine (Finset.abs_sum_le_sum_abs _ _).trans ((Finset.sum_le_sum fun p _ => prod_diff (he o) (he' o) (he p) (he' p) (hd o) (hd p)).trans ?_)
    rw [Finset.sum_const, Finset.card_univ, Fintype.card_fin, nsmul_eq_mul]
  have hc := prod_diff (he o) (he' o) (he o) (he' o) (hd o) (hd o)
  have hD : 0 ≤ D := (abs_nonneg _).trans (hd o)
  have hqd : |q * (e o - e' o)| ≤ D := by
    rw [abs_mul, abs_of_nonneg hq]
    exact (mul_le_of_le_one_left (abs_nonneg _) hq1).trans (hd o)
  have e1 : core α κ wx wy wz q o e lx ly lz - core α κ wx wy wz q o e' lx' ly' lz' =
      α * (-3 * (e o * e o ^ 2 - e' o * e' o ^ 2) - (e o - e' o) + 4 * ∑ p, (e o * e p ^ 2 - e' o * e' p ^ 2) + 2 * (q * (e o - e' o)))
        - κ * ((lx - lx') * wx + (ly - ly') * wy + (lz - lz') * wz) := by
    unfold core
    rw [Finset.sum_sub_distrib]
    ring
  rw [e1]
  refine (abs_sub _ _).trans ?_
  rw [abs_mul, abs_mul, abs_of_nonneg hα, abs_of_nonneg hκ]
  have b1 : |-3 * (e o * e o ^ 2 - e' o * e' o ^ 2) - (e o - e' o) + 4 * ∑ p, (e o * e p ^ 2 - e' o * e' p ^ 2) + 2 * (q * (e o - e' o))| ≤ (12 * m * R ^ 2 + 9 * R ^ 2 + 3) * D := by
    have c1 := abs_le.mp hc; have c2 := abs_le.mp (hd o); have c3 := abs_le.mp hs; have c4 := abs_le.mp hqd
    rw [abs_le]
    constructor <;> linarith [c1.1, c1.2, c2.1, c2.2, c3.1, c3.2, c4.1, c4.2]
  have b2 : |(lx - lx') * wx + (ly - ly') * wy + (lz - lz') * wz| ≤ 4 * D * (wx + wy + wz) := by
    refine (abs_add_le _ _).trans ((add_le_add (abs_add_le _ _) le_rfl).trans ?_)
    simp only [abs_mul, abs_of_nonneg hx, abs_of_nonneg hy, abs_of_nonneg hz]
    have p1 := mul_le_mul_of_nonneg_right h1 hx
    have p2 := mul_le_mul_of_nonneg_right h2 hy
    have p3 := mul_le_mul_of_nonneg_right h3 hz
    linarith
  have d1 := mul_le_mul_of_nonneg_left b1 hα
  have d2 := mul_le_mul_of_nonneg_left b2 hκ
  linarith

theorem core_zero (α κ wx wy wz q : ℝ) (o : Fin m) : core α κ wx wy wz q o (fun _ => 0) 0 0 0 = 0 := by simp [core]

theorem lap1_zero (N i : ℕ) : lap1 N (fun _ => 0) i = 0 := by simp [lap1]

/-! ## The coefficients in time -/

variable {th : ℝ → ℝ} {P : PfArgs m d} {T : ℝ → ℕ → ℝ} {Te Tmin V : ℝ}

theorem Lg_range (h : Physical th P T Te Tmin V) {t : ℝ} (ht : t ∈ Icc 0 Te) {n : ℕ} (hn : n < P.N) : 0 ≤ LgOf P (T t) n ∧ LgOf P (T t) n ≤ P.L0 := by
  refine ⟨mul_nonneg h.L0 (Real.exp_pos _).le, mul_le_of_le_one_right h.L0 (Real.exp_le_one_iff.mpr ?_)⟩
  have := h.Tmin_pos.trans_le (h.warm t ht n hn)
  rw [neg_div, neg_nonpos]
  exact div_nonneg h.Qg (mul_pos this h.gas).le

theorem zeta_range (h : Physical th P T Te Tmin V) (t : ℝ) (n : ℕ) : 0 ≤ (1 - zetaOf th P (T t) n) ∧ (1 - zetaOf th P (T t) n) ≤ 1 := by
  have := h.th_range (1e10 * (capT (T t n) / P.T_liquidus - 1))
  unfold zetaOf
  constructor <;> linarith [this.1, this.2]

theorem exp_diff {a b : ℝ} (ha : a ≤ 0) (hb : b ≤ 0) : |Real.exp a - Real.exp b| ≤ |a - b| := by
  wlog hab : b ≤ a generalizing a b
  · rw [abs_sub_comm, abs_sub_comm a]; exact this hb ha (le_of_not_ge hab)
  rw [abs_of_nonneg (sub_nonneg.mpr (Real.exp_le_exp.mpr hab)), abs_of_nonneg (sub_nonneg.mpr hab)]
  have h1 : Real.exp b = Real.exp a * Real.exp (b - a) := by rw [← Real.exp_add]; congr 1; ring
  have h2 := Real.add_one_le_exp (b - a)
  have h3 : Real.exp a ≤ 1 := Real.exp_le_one_iff.mpr ha
  rw [h1]
  nlinarith [Real.exp_pos a, mul_le_mul_of_nonneg_left h2 (Real.exp_pos a).le, mul_le_mul_of_nonneg_right h3 (sub_nonneg.mpr hab)]

/-- How fast the mobility changes. -/
noncomputable def cL (P : PfArgs m d) (Tmin V : ℝ) : ℝ := P.L0 * (P.Qg / (P.gas_const * Tmin ^ 2) * V)

theorem Lg_slow (h : Physical th P T Te Tmin V) {s t : ℝ} (hs : s ∈ Icc 0 Te) (ht : t ∈ Icc 0 Te) {n : ℕ} (hn : n < P.N) : |LgOf P (T s) n - LgOf P (T t) n| ≤ cL P Tmin V * |s - t| := by
  have hsl := h.slow s hs t ht n hn
  have hw1 := h.warm s hs n hn
  have hw2 := h.warm t ht n hn
  unfold LgOf cL
  generalize capT (T s n) = a at *
  generalize capT (T t n) = b at *
  have ha := h.Tmin_pos.trans_le hw1
  have hb := h.Tmin_pos.trans_le hw2
  rw [← mul_sub, abs_mul, abs_of_nonneg h.L0, mul_assoc]
  refine mul_le_mul_of_nonneg_left ?_ h.L0
  refine (exp_diff (by rw [neg_div, neg_nonpos]; exact div_nonneg h.Qg (mul_pos ha h.gas).le) (by rw [neg_div, neg_nonpos]; exact div_nonneg h.Qg (mul_pos hb h.gas).le)).trans ?_
  have hg := h.gas
  have e : -P.Qg / (a * P.gas_const) - -P.Qg / (b * P.gas_const) = P.Qg / (P.gas_const * (a * b)) * (a - b) := by
    have := ha.ne'; have := hb.ne'; have := hg.ne'
    field_simp
    ring
  rw [e, abs_mul, abs_of_nonneg (div_nonneg h.Qg (by positivity)), mul_assoc]
  have hab : Tmin ^ 2 ≤ a * b := by rw [sq]; exact mul_le_mul hw1 hw2 h.Tmin_pos.le ha.le
  have hT2 : 0 < Tmin ^ 2 := by have := h.Tmin_pos; positivity
  have h1 : P.Qg / (P.gas_const * (a * b)) ≤ P.Qg / (P.gas_const * Tmin ^ 2) := div_le_div_of_nonneg_left h.Qg (mul_pos hg hT2) (mul_le_mul_of_nonneg_left hab hg.le)
  exact mul_le_mul h1 hsl (abs_nonneg _) (div_nonneg h.Qg (mul_pos hg hT2).le)

/-- How fast the liquid indicator changes. -/
noncomputable def cQ (P : PfArgs m d) (V : ℝ) : ℝ := 1e10 / P.T_liquidus * V

theorem q_slow (h : Physical th P T Te Tmin V) {s t : ℝ} (hs : s ∈ Icc 0 Te) (ht : t ∈ Icc 0 Te) {n : ℕ} (hn : n < P.N) :
    |(1 - zetaOf th P (T s) n) ^ 2 - (1 - zetaOf th P (T t) n) ^ 2| ≤ cQ P V * |s - t| := by
  have z1 := zeta_range h s n
  have z2 := zeta_range h t n
  have hz : |(1 - zetaOf th P (T s) n) - (1 - zetaOf th P (T t) n)| ≤ 1 / 2 * (1e10 / P.T_liquidus * (V * |s - t|)) := by
    have hl := h.th_lip (1e10 * (capT (T s n) / P.T_liquidus - 1)) (1e10 * (capT (T t n) / P.T_liquidus - 1))
    have e : 1e10 * (capT (T s n) / P.T_liquidus - 1) - 1e10 * (capT (T t n) / P.T_liquidus - 1) = 1e10 / P.T_liquidus * (capT (T s n) - capT (T t n)) := by ring
    have hc : (0 : ℝ) ≤ 1e10 / P.T_liquidus := div_nonneg (by norm_num) h.liq.le
    rw [e, abs_mul, abs_of_nonneg hc] at hl
    have e2 : (1 - zetaOf th P (T s) n) - (1 - zetaOf th P (T t) n) = 1 / 2 * (th (1e10 * (capT (T s n) / P.T_liquidus - 1)) - th (1e10 * (capT (T t n) / P.T_liquidus - 1))) := by unfold zetaOf; ring
    rw [e2, abs_mul, abs_of_nonneg (by norm_num : (0 : ℝ) ≤ 1 / 2)]
    exact mul_le_mul_of_nonneg_left (hl.trans (mul_le_mul_of_nonneg_left (h.slow s hs t ht n hn) hc)) (by norm_num)
  generalize (1 - zetaOf th P (T s) n) = a at *
  generalize (1 - zetaOf th P (T t) n) = b at *
  have e : a ^ 2 - b ^ 2 = (a + b) * (a - b) := by ring
  rw [e, abs_mul, abs_of_nonneg (by linarith [z1.1, z2.1] : 0 ≤ a + b)]
  have : (a + b) * |a - b| ≤ 2 * |a - b| := mul_le_mul_of_nonneg_right (by linarith [z1.2, z2.2]) (abs_nonneg _)
  unfold cQ
  linarith

/-! ## The equations as one vector equation -/

/-- The order parameters of all cells as a vector. -/
abbrev Vec (P : PfArgs m d) := Fin P.N × Fin m → ℝ

/-- As an array of the program. -/
def ext (P : PfArgs m d) (v : Vec P) : ℕ → Fin m → ℝ := fun n o => if h : n < P.N then v (⟨n, h⟩, o) else 0

/-- As a vector. -/
def res (P : PfArgs m d) (eta : ℕ → Fin m → ℝ) : Vec P := fun p => eta p.1 p.2

theorem ext_apply (v : Vec P) {n : ℕ} (h : n < P.N) (o : Fin m) : ext P v n o = v (⟨n, h⟩, o) := by simp [ext, h]

/-- The right-hand side as a vector. -/
noncomputable def field (th : ℝ → ℝ) (P : PfArgs m d) (T : ℝ → ℕ → ℝ) (t : ℝ) (v : Vec P) : Vec P := fun p => stateRhs th P (T t) (ext P v) p.1 p.2

/-- The order parameters in `[0, 1]`. -/
def clip (P : PfArgs m d) (v : Vec P) : Vec P := fun p => max 0 (min 1 (v p))

/-- Difference of the right-hand side in one cell. -/
theorem rhs_lip (h : Physical th P T Te Tmin V) {t : ℝ} (ht : t ∈ Icc 0 Te) {R D : ℝ} {eta eta' : ℕ → Fin m → ℝ} (h1 : ∀ n < P.N, ∀ o, |eta n o| ≤ R) (h2 : ∀ n < P.N, ∀ o, |eta' n o| ≤ R)
    (hd : ∀ n < P.N, ∀ o, |eta n o - eta' n o| ≤ D) {n : ℕ} (hn : n < P.N) (o : Fin m) :
    |stateRhs th P (T t) eta n o - stateRhs th P (T t) eta' n o| ≤ P.L0 * K0 P R * D := by
  obtain ⟨k, j, i, hk, hj, hi, rfl⟩ := idx3_surj hn
  have e1 := rhs_eq th P h.iso (T t) eta hk hj hi o
  have e2 := rhs_eq th P h.iso (T t) eta' hk hj hi o
  have hL := Lg_range h ht hn
  have hz := zeta_range h t (etaNo P k j i)
  change |stateRhs th P (T t) eta (etaNo P k j i) o - stateRhs th P (T t) eta' (etaNo P k j i) o| ≤ _
  change 0 ≤ LgOf P (T t) (etaNo P k j i) ∧ _ at hL
  rw [e1, e2, ← mul_sub, abs_mul, abs_neg, abs_of_nonneg hL.1, mul_assoc]
  have hD : 0 ≤ D := (abs_nonneg _).trans (hd _ hn o)
  refine mul_le_mul hL.2 ?_ (abs_nonneg _) h.L0
  refine core_lip (div_nonneg h.m_g h.ad_hoc.le) (mul_nonneg h.kappa h.ad_hoc.le) (by positivity) (by positivity) (by positivity) (sq_nonneg _) (pow_le_one₀ hz.1 hz.2) o
    (fun p => h1 _ hn p) (fun p => h2 _ hn p) (fun p => hd _ hn p) ?_ ?_ ?_
  · exact lap1_diff hi fun i' hi' => hd _ (idx3_lt hk hj hi') o
  · exact lap1_diff hj fun j' hj' => hd _ (idx3_lt hk hj' hi) o
  · exact lap1_diff hk fun k' hk' => hd _ (idx3_lt hk' hj hi) o

/-- Only the values in the cells matter. -/
theorem rhs_congr (h : Physical th P T Te Tmin V) {t : ℝ} (ht : t ∈ Icc 0 Te) {eta eta' : ℕ → Fin m → ℝ} (he : ∀ n < P.N, ∀ o, eta n o = eta' n o) {n : ℕ} (hn : n < P.N) (o : Fin m) :
    stateRhs th P (T t) eta n o = stateRhs th P (T t) eta' n o := by
  have hR : ∀ n < P.N, ∀ o, |eta n o| ≤ ∑ n ∈ Finset.range P.N, ∑ o, |eta n o| := fun n hn o =>
    (Finset.single_le_sum (f := fun o => |eta n o|) (fun _ _ => abs_nonneg _) (Finset.mem_univ o)).trans
      (Finset.single_le_sum (f := fun n => ∑ o, |eta n o|) (fun _ _ => Finset.sum_nonneg fun _ _ => abs_nonneg _) (Finset.mem_range.mpr hn))
  have := rhs_lip h ht (D := 0) (eta' := eta') hR (fun n hn o => by rw [← he n hn o]; exact hR n hn o) (fun n hn o => by rw [he n hn o]; simp) hn o
  rw [mul_zero] at this
  exact sub_eq_zero.mp (abs_nonpos_iff.mp this)

/-- The rest state. -/
theorem rhs_zero (h : Physical th P T Te Tmin V) (t : ℝ) {n : ℕ} (hn : n < P.N) (o : Fin m) : stateRhs th P (T t) (fun _ _ => 0) n o = 0 := by
  obtain ⟨k, j, i, hk, hj, hi, rfl⟩ := idx3_surj hn
  have e1 := rhs_eq th P h.iso (T t) (fun _ _ => 0) hk hj hi o
  change stateRhs th P (T t) (fun _ _ => 0) (etaNo P k j i) o = 0
  rw [e1, lap1_zero, lap1_zero, lap1_zero, core_zero, mul_zero]

/-- How fast the right-hand side changes in time. -/
noncomputable def cF (P : PfArgs m d) (Tmin V : ℝ) : ℝ := cL P Tmin V * K0 P 1 + P.L0 * (P.m_g / P.ad_hoc * (2 * cQ P V))

theorem rhs_slow (h : Physical th P T Te Tmin V) {s t : ℝ} (hs : s ∈ Icc 0 Te) (ht : t ∈ Icc 0 Te) {eta : ℕ → Fin m → ℝ} (h1 : ∀ n < P.N, ∀ o, |eta n o| ≤ 1) {n : ℕ} (hn : n < P.N) (o : Fin m) :
    |stateRhs th P (T s) eta n o - stateRhs th P (T t) eta n o| ≤ cF P Tmin V * |s - t| := by
  have hq := q_slow h hs ht hn
  have hLs := Lg_slow h hs ht hn
  have hL := Lg_range h ht hn
  have hz := zeta_range h s n
  have hx := h1 n hn o
  obtain ⟨k, j, i, hk, hj, hi, rfl⟩ := idx3_surj hn
  have e1 := rhs_eq th P h.iso (T s) eta hk hj hi o
  have e2 := rhs_eq th P h.iso (T t) eta hk hj hi o
  have hc := core_lip (α := P.m_g / P.ad_hoc) (κ := P.kappa_g * P.ad_hoc) (wx := 1 / P.hx ^ 2) (wy := 1 / P.hy ^ 2) (wz := 1 / P.hz ^ 2) (q := (1 - zetaOf th P (T s) (etaNo P k j i)) ^ 2) (R := 1) (D := 1)
    (div_nonneg h.m_g h.ad_hoc.le) (mul_nonneg h.kappa h.ad_hoc.le) (by positivity) (by positivity) (by positivity) (sq_nonneg _) (pow_le_one₀ hz.1 hz.2) o (e := eta (etaNo P k j i)) (e' := fun _ => 0)
    (lx := lap1 P.Nx (fun i => eta (etaNo P k j i) o) i) (ly := lap1 P.Ny (fun j => eta (etaNo P k j i) o) j) (lz := lap1 P.Nz (fun k => eta (etaNo P k j i) o) k)
    (lx' := 0) (ly' := 0) (lz' := 0) (fun p => h1 _ hn p) (fun p => by simp) (fun p => by rw [sub_zero]; exact h1 _ hn p)
    (by rw [← lap1_zero P.Nx i]; exact lap1_diff hi fun i' hi' => by rw [sub_zero]; exact h1 _ (idx3_lt hk hj hi') o)
    (by rw [← lap1_zero P.Ny j]; exact lap1_diff hj fun j' hj' => by rw [sub_zero]; exact h1 _ (idx3_lt hk hj' hi) o)
    (by rw [← lap1_zero P.Nz k]; exact lap1_diff hk fun k' hk' => by rw [sub_zero]; exact h1 _ (idx3_lt hk' hj hi) o)
  rw [core_zero, sub_zero, mul_one] at hc
  change |stateRhs th P (T s) eta (etaNo P k j i) o - stateRhs th P (T t) eta (etaNo P k j i) o| ≤ _
  change |LgOf P (T s) (etaNo P k j i) - LgOf P (T t) (etaNo P k j i)| ≤ _ at hLs
  change 0 ≤ LgOf P (T t) (etaNo P k j i) ∧ _ at hL
  change |(1 - zetaOf th P (T s) (etaNo P k j i)) ^ 2 - (1 - zetaOf th P (T t) (etaNo P k j i)) ^ 2| ≤ _ at hq
  change |eta (etaNo P k j i) o| ≤ 1 at hx
  rw [e1, e2]
  have e : ∀ (La Lb ca cb : ℝ), -La * ca - -Lb * cb = -((La - Lb) * ca + Lb * (ca - cb)) := fun _ _ _ _ => by ring
  rw [e, abs_neg]
  refine (abs_add_le _ _).trans ?_
  rw [abs_mul, abs_mul, abs_of_nonneg hL.1]
  have ed : core (P.m_g / P.ad_hoc) (P.kappa_g * P.ad_hoc) (1 / P.hx ^ 2) (1 / P.hy ^ 2) (1 / P.hz ^ 2) ((1 - zetaOf th P (T s) (etaNo P k j i)) ^ 2) o (eta (etaNo P k j i))
        (lap1 P.Nx (fun i => eta (etaNo P k j i) o) i) (lap1 P.Ny (fun j => eta (etaNo P k j i) o) j) (lap1 P.Nz (fun k => eta (etaNo P k j i) o) k)
      - core (P.m_g / P.ad_hoc) (P.kappa_g * P.ad_hoc) (1 / P.hx ^ 2) (1 / P.hy ^ 2) (1 / P.hz ^ 2) ((1 - zetaOf th P (T t) (etaNo P k j i)) ^ 2) o (eta (etaNo P k j i))
        (lap1 P.Nx (fun i => eta (etaNo P k j i) o) i) (lap1 P.Ny (fun j => eta (etaNo P k j i) o) j) (lap1 P.Nz (fun k => eta (etaNo P k j i) o) k)
      = P.m_g / P.ad_hoc * (2 * (((1 - zetaOf th P (T s) (etaNo P k j i)) ^ 2 - (1 - zetaOf th P (T t) (etaNo P k j i)) ^ 2) * eta (etaNo P k j i) o)) := by
    unfold core; ring
  have hα : 0 ≤ P.m_g / P.ad_hoc := div_nonneg h.m_g h.ad_hoc.le
  rw [ed, abs_mul, abs_mul, abs_mul, abs_of_nonneg hα, abs_of_nonneg (by norm_num : (0 : ℝ) ≤ 2)]
  have hqn : 0 ≤ cQ P V * |s - t| := (abs_nonneg _).trans hq
  have t1 := mul_le_mul hLs hc (abs_nonneg _) ((abs_nonneg _).trans hLs)
  have t2 : P.m_g / P.ad_hoc * (2 * (|(1 - zetaOf th P (T s) (etaNo P k j i)) ^ 2 - (1 - zetaOf th P (T t) (etaNo P k j i)) ^ 2| * |eta (etaNo P k j i) o|))
      ≤ P.m_g / P.ad_hoc * (2 * (cQ P V * |s - t|)) := by
    refine mul_le_mul_of_nonneg_left (mul_le_mul_of_nonneg_left ?_ (by norm_num)) hα
    have := mul_le_mul hq hx (abs_nonneg _) hqn
    rwa [mul_one] at this
  have t3 := mul_le_mul hL.2 t2 (by positivity) h.L0
  refine (add_le_add t1 t3).trans (le_of_eq ?_)
  unfold cF K0
  ring

theorem K0_nonneg (h : Physical th P T Te Tmin V) (R : ℝ) : 0 ≤ K0 P R := by
  have h1 : 0 ≤ P.m_g / P.ad_hoc := div_nonneg h.m_g h.ad_hoc.le
  have h2 : 0 ≤ P.kappa_g * P.ad_hoc := mul_nonneg h.kappa h.ad_hoc.le
  unfold K0
  positivity

theorem cF_nonneg (h : Physical th P T Te Tmin V) : 0 ≤ cF P Tmin V := by
  have h1 : 0 ≤ P.m_g / P.ad_hoc := div_nonneg h.m_g h.ad_hoc.le
  have h2 : 0 ≤ P.Qg / (P.gas_const * Tmin ^ 2) := div_nonneg h.Qg (mul_nonneg h.gas.le (sq_nonneg _))
  have h3 : 0 ≤ 1e10 / P.T_liquidus := div_nonneg (by norm_num) h.liq.le
  have := K0_nonneg h 1
  have := h.L0
  have := h.V_nonneg
  unfold cF cL cQ
  positivity

theorem clip_range (v : Vec P) (p : Fin P.N × Fin m) : 0 ≤ clip P v p ∧ clip P v p ≤ 1 := ⟨le_max_left _ _, max_le zero_le_one (min_le_left _ _)⟩

theorem clip_of_mem {v : Vec P} (h : ∀ p, 0 ≤ v p ∧ v p ≤ 1) : clip P v = v := by
  funext p
  unfold clip
  rw [min_eq_right (h p).2, max_eq_right (h p).1]

theorem clip_lip (v w : Vec P) (p : Fin P.N × Fin m) : |clip P v p - clip P w p| ≤ ‖v - w‖ := by
  have h := norm_le_pi_norm (v - w) p
  rw [Real.norm_eq_abs, Pi.sub_apply] at h
  refine le_trans ?_ h
  unfold clip
  exact (abs_max_sub_max_le_max _ _ _ _).trans (max_le (by simp) ((abs_min_sub_min_le_max _ _ _ _).trans (max_le (by simp) le_rfl)))

/-- The equations with the order parameters clipped to `[0, 1]` have a bounded Lipschitz right-hand side. -/
theorem nice (h : Physical th P T Te Tmin V) : Nice (fun t v => field th P T t (clip P v)) Te (P.L0 * K0 P 1) (cF P Tmin V) (P.L0 * K0 P 1) := by
  have hK : 0 ≤ P.L0 * K0 P 1 := mul_nonneg h.L0 (K0_nonneg h 1)
  have h1 : ∀ (v : Vec P), ∀ n < P.N, ∀ o, |ext P (clip P v) n o| ≤ 1 := fun v n hn o => by
    rw [ext_apply _ hn, abs_of_nonneg (clip_range v _).1]; exact (clip_range v _).2
  refine ⟨hK, cF_nonneg h, hK, fun t ht x y => ?_, fun s hs t ht x => ?_, fun t ht x => ?_⟩
  · refine (pi_norm_le_iff_of_nonneg (by positivity)).mpr fun p => ?_
    exact rhs_lip h ht (h1 x) (h1 y) (fun n hn o => by rw [ext_apply _ hn, ext_apply _ hn]; exact clip_lip x y _) p.1.2 p.2
  · refine (pi_norm_le_iff_of_nonneg (mul_nonneg (cF_nonneg h) (abs_nonneg _))).mpr fun p => ?_
    exact rhs_slow h hs ht (h1 x) p.1.2 p.2
  · refine (pi_norm_le_iff_of_nonneg hK).mpr fun p => ?_
    have := rhs_lip h ht (h1 x) (eta' := fun _ _ => 0) (by simp) (D := 1) (fun n hn o => by simpa using h1 x n hn o) p.1.2 p.2
    rw [rhs_zero h t p.1.2 p.2, sub_zero, mul_one] at this
    exact this

end Verif.PhaseField.Ode
