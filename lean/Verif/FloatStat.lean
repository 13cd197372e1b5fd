import Verif.FloatProps
import Verif.TestModel
import Mathlib.Algebra.BigOperators.Ring.Finset
import Mathlib.Algebra.Order.BigOperators.Group.Finset

/-!
# Property C113: sample variance and the chi-square statistic with rounding

`Fl R` has no function `pow`; the theorems take any function whose square has a relative error of at most `(1 + u)^2 - 1`
(the standard library promises no error bound for `powf`; those in use return the square up to one unit in the last place).
-/

namespace Verif
open Finset

namespace Rounding
variable {K : Type} [Field K] [LinearOrder K] [IsStrictOrderedRing K] {R : Rounding K}

/-- `a` agrees with `b ≥ 0` up to `n` relative errors of size `u` -/
def Near (R : Rounding K) (n : ℕ) (a b : K) : Prop := 0 ≤ b ∧ a ≤ (1 + R.u) ^ n * b ∧ b ≤ (1 + R.u) ^ n * a

theorem pw_pos (R : Rounding K) (n : ℕ) : 0 < (1 + R.u) ^ n := pow_pos (lt_of_lt_of_le one_pos R.one_le) n

namespace Near

theorem nonneg {n : ℕ} {a b : K} (h : R.Near n a b) : 0 ≤ a := by
  by_contra hc
  have := mul_neg_of_pos_of_neg (R.pw_pos n) (not_le.1 hc)
  linarith [h.1, h.2.2]

theorem pos {n : ℕ} {a b : K} (h : R.Near n a b) (hb : 0 < b) : 0 < a := by
  rcases h.nonneg.lt_or_eq with h1 | h1
  · exact h1
  · have := h.2.2
    rw [← h1, mul_zero] at this
    linarith

theorem refl {b : K} (hb : 0 ≤ b) : R.Near 0 b b := by simp [Near, hb]

theorem mono {m n : ℕ} (hmn : m ≤ n) {a b : K} (h : R.Near m a b) : R.Near n a b := by
  have := pow_le_pow_right₀ R.one_le hmn
  exact ⟨h.1, h.2.1.trans (mul_le_mul_of_nonneg_right this h.1), h.2.2.trans (mul_le_mul_of_nonneg_right this h.nonneg)⟩

theorem symm {n : ℕ} {a b : K} (h : R.Near n a b) : R.Near n b a := ⟨h.nonneg, h.2.2, h.2.1⟩

theorem trans {m n : ℕ} {a b c : K} (h : R.Near m a b) (h' : R.Near n b c) : R.Near (m + n) a c := by
  refine ⟨h'.1, ?_, ?_⟩
  · have := mul_le_mul_of_nonneg_left h'.2.1 (R.pw_pos m).le
    rw [pow_add, mul_assoc]
    exact h.2.1.trans this
  · have := mul_le_mul_of_nonneg_left h.2.2 (R.pw_pos n).le
    rw [pow_add, mul_comm ((1 + R.u) ^ m), mul_assoc]
    exact h'.2.2.trans this

theorem of_rnd (hu : R.u < 1) {x : K} (hx : 0 ≤ x) : R.Near 1 (R.rnd x) x := by
  have h1 := abs_le.1 (R.err x)
  have h2 := abs_le.1 (R.err' x)
  rw [abs_of_nonneg hx] at h1
  have h3 : 0 ≤ R.rnd x := by nlinarith
  rw [abs_of_nonneg h3] at h2
  rw [Near, pow_one]
  exact ⟨hx, by linarith, by linarith⟩

theorem rnd (hu : R.u < 1) {n : ℕ} {a b : K} (h : R.Near n a b) : R.Near (n + 1) (R.rnd a) b := by
  have := (of_rnd hu h.nonneg).trans h
  rwa [add_comm] at this

theorem add {n : ℕ} {a b a' b' : K} (h : R.Near n a b) (h' : R.Near n a' b') : R.Near n (a + a') (b + b') :=
  ⟨add_nonneg h.1 h'.1, by linarith [h.2.1, h'.2.1], by linarith [h.2.2, h'.2.2]⟩

theorem mul {m n : ℕ} {a b a' b' : K} (h : R.Near m a b) (h' : R.Near n a' b') : R.Near (m + n) (a * a') (b * b') := by
  refine ⟨mul_nonneg h.1 h'.1, ?_, ?_⟩
  · have := mul_le_mul h.2.1 h'.2.1 h'.nonneg (mul_nonneg (R.pw_pos m).le h.1)
    rw [pow_add]
    linarith
  · have := mul_le_mul h.2.2 h'.2.2 h'.1 (mul_nonneg (R.pw_pos m).le h.nonneg)
    rw [pow_add]
    linarith

theorem inv {n : ℕ} {a b : K} (h : R.Near n a b) (hb : 0 < b) : R.Near n a⁻¹ b⁻¹ := by
  have ha := h.pos hb
  refine ⟨by positivity, ?_, ?_⟩
  · rw [inv_eq_one_div, ← div_eq_mul_inv, div_le_div_iff₀ ha hb]
    linarith [h.2.2]
  · rw [inv_eq_one_div, ← div_eq_mul_inv, div_le_div_iff₀ hb ha]
    linarith [h.2.1]

theorem div {m n : ℕ} {a b a' b' : K} (h : R.Near m a b) (h' : R.Near n a' b') (hb : 0 < b') :
    R.Near (m + n) (a / a') (b / b') := by
  rw [div_eq_mul_inv, div_eq_mul_inv]
  exact h.mul (h'.inv hb)

/-- the square of a rounded number -/
theorem rnd_sq (R : Rounding K) (x : K) : R.Near 2 (R.rnd x ^ 2) (x ^ 2) := by
  have u0 := R.u_nonneg
  have h1 : |R.rnd x| ≤ (1 + R.u) * |x| := by
    have := R.err x
    have := abs_sub_abs_le_abs_sub (R.rnd x) x
    linarith
  have h2 : |x| ≤ (1 + R.u) * |R.rnd x| := by
    have := R.err' x
    have := abs_sub_abs_le_abs_sub x (R.rnd x)
    rw [abs_sub_comm] at this
    linarith
  refine ⟨sq_nonneg _, ?_, ?_⟩
  · rw [← sq_abs (R.rnd x), ← sq_abs x, ← mul_pow]
    exact pow_le_pow_left₀ (abs_nonneg _) h1 2
  · rw [← sq_abs (R.rnd x), ← sq_abs x, ← mul_pow]
    exact pow_le_pow_left₀ (abs_nonneg _) h2 2

/-- recursive summation of numbers that are not negative -/
theorem foldl (hu : R.u < 1) {α : Type} (f : α → Fl R) (g : α → K) (k : ℕ) (l : List α)
    (h : ∀ a ∈ l, R.Near k (f a).val (g a)) :
    R.Near (k + l.length) (l.foldl (fun s a => s + f a) 0).val (l.map g).sum := by
  induction l using List.reverseRecOn with
  | nil => simp [Near, Fl.zero_val]
  | append_singleton l x ih =>
    have h1 := ih fun a ha => h a (by simp [ha])
    have h2 := h x (by simp)
    have h3 := (h1.add (h2.mono (by omega : k ≤ k + l.length))).rnd hu
    simpa [Fl.add_val, ← add_assoc] using h3

theorem abs_sub_le {k : ℕ} {e E : K} (h : R.Near k e E) : |e - E| ≤ ((1 + R.u) ^ k - 1) * E := by
  have h0 := one_le_pow₀ (n := k) R.one_le
  have h3 : E * (2 - (1 + R.u) ^ k) ≤ e := by
    rcases le_or_gt ((1 + R.u) ^ k) 2 with h2 | h2
    · have h4 := mul_le_mul_of_nonneg_right h.2.2 (by linarith : 0 ≤ 2 - (1 + R.u) ^ k)
      have h5 : (1 + R.u) ^ k * (2 - (1 + R.u) ^ k) ≤ 1 := by nlinarith [sq_nonneg ((1 + R.u) ^ k - 1)]
      have := mul_le_mul_of_nonneg_right h5 h.nonneg
      linarith
    · have := mul_nonneg h.1 (by linarith : 0 ≤ (1 + R.u) ^ k - 2)
      linarith [h.nonneg]
  rw [abs_le]
  constructor <;> linarith [h.2.1]

end Near
end Rounding

namespace Stat
open Rounding
variable {K : Type} [Field K] [LinearOrder K] [IsStrictOrderedRing K] {R : Rounding K} [Pow (Fl R) ℕ]

/-- **C113, variance about a given mean.** `calc_variance` returns the sum of the squared distances to the given mean, divided
by `n - 1`, with a relative error of at most `(1 + u)^(n + 6) - 1`: there is no cancellation. -/
theorem C113_variance (hu : R.u < 1) (hp : ∀ x : Fl R, R.Near 2 (x ^ 2).val (x.val ^ 2)) (l : List (Fl R)) (m : Fl R)
    (hl : 2 ≤ l.length) : ∃ v, calcVariance l m = some v ∧
      v.val ≤ (1 + R.u) ^ (l.length + 6) * ((l.map fun x => (x.val - m.val) ^ 2).sum / (l.length - 1)) ∧
      (l.map fun x => (x.val - m.val) ^ 2).sum / (l.length - 1) ≤ (1 + R.u) ^ (l.length + 6) * v.val := by
  refine ⟨_, by rw [calcVariance, if_neg (by omega)], ?_⟩
  have h1 := Near.foldl (R := R) hu (fun x : Fl R => (x - m) ^ 2) (fun x => (x.val - m.val) ^ 2) 4 l
    (fun x _ => (hp (x - m)).trans (Near.rnd_sq R (x.val - m.val)))
  have h2 : R.Near 1 (((l.length - 1 : ℕ) : Fl R)).val ((l.length - 1 : ℕ) : K) := Near.of_rnd hu (Nat.cast_nonneg _)
  have h3 := ((h1.div h2 (by exact_mod_cast (by omega : 0 < l.length - 1))).rnd hu).mono
    (by omega : _ ≤ l.length + 6)
  rw [Nat.cast_sub (by omega), Nat.cast_one] at h3
  exact h3.2

/-- the squared distances to `m` and to the mean -/
theorem sum_sq_shift (l : List K) (hl : l ≠ []) (m : K) :
    (l.map fun x => (x - m) ^ 2).sum =
      (l.map fun x => (x - l.sum / l.length) ^ 2).sum + l.length * (m - l.sum / l.length) ^ 2 := by
  have key : ∀ (c : K) (l : List K), (l.map fun x => (x - m) ^ 2).sum =
      (l.map fun x => (x - c) ^ 2).sum + 2 * (c - m) * (l.sum - l.length * c) + l.length * (m - c) ^ 2 := by
    intro c l
    induction l with
    | nil => simp
    | cons a l ih =>
      simp only [List.map_cons, List.sum_cons, List.length_cons, Nat.cast_add, Nat.cast_one, ih]
      ring
  have hn : (l.length : K) ≠ 0 := by simpa using hl
  rw [key (l.sum / l.length), mul_div_cancel₀ _ hn, sub_self, mul_zero, add_zero]

/-- **C113, from_data.** For `n ≥ 2` numbers that are not all equal `Normal::from_data` returns (however large the rounding
errors are), and the variance is that of the data plus `n δ² / (n - 1)`, up to a relative error of `(1 + u)^(n + 6) - 1`; here
`δ` is the error of the computed mean. -/
theorem C113_from_data (hu : R.u < 1) (hp : ∀ x : Fl R, R.Near 2 (x ^ 2).val (x.val ^ 2)) (l : List (Fl R))
    (hne : ∃ x ∈ l, ∃ y ∈ l, x ≠ y) :
    ∃ (m v : Fl R) (δ V : K), normalFromData l = some (m, v) ∧ 0 < v.val ∧
      m.val = (l.map Fl.val).sum / l.length + δ ∧
      |δ| ≤ ((1 + R.u) ^ (l.length + 2) - 1) * ((l.map fun x => |x.val|).sum / l.length) ∧
      V = ((l.map fun x => (x.val - (l.map Fl.val).sum / l.length) ^ 2).sum + l.length * δ ^ 2) / (l.length - 1) ∧
      v.val ≤ (1 + R.u) ^ (l.length + 6) * V ∧ V ≤ (1 + R.u) ^ (l.length + 6) * v.val := by
  obtain ⟨x, hx, y, hy, hxy⟩ := hne
  have hl : 2 ≤ l.length := by
    match l, hx, hy with
    | [a], hx, hy => simp only [List.mem_singleton] at hx hy; exact absurd (hx.trans hy.symm) hxy
    | a :: b :: l, _, _ => simp
  have hl0 : l ≠ [] := by rintro rfl; simp at hl
  obtain ⟨m, hm, hmb⟩ := C88_mean l hl0
  obtain ⟨v, hv, v1, v2⟩ := C113_variance hu hp l m hl
  set c := (l.map Fl.val).sum / (l.length : K) with hc
  have e := sum_sq_shift (l.map Fl.val) (by simpa using hl0) m.val
  rw [List.length_map, List.map_map, List.map_map, ← hc] at e
  simp only [Function.comp_def] at e
  have hn : (0 : K) < l.length - 1 := by
    have : (2 : K) ≤ l.length := by exact_mod_cast hl
    linarith
  have hpos : 0 < (l.map fun x => (x.val - m.val) ^ 2).sum := by
    have h1 : ∀ z ∈ l, (z.val - m.val) ^ 2 ≤ (l.map fun x => (x.val - m.val) ^ 2).sum := fun z hz =>
      List.single_le_sum (fun w hw => by
        obtain ⟨q, _, rfl⟩ := List.mem_map.1 hw
        exact sq_nonneg _) _ (List.mem_map.2 ⟨z, hz, rfl⟩)
    by_contra hcon
    have hz : ∀ z ∈ l, z.val = m.val := fun z hz => by
      have : (z.val - m.val) ^ 2 = 0 := le_antisymm ((h1 z hz).trans (not_lt.1 hcon)) (sq_nonneg _)
      exact sub_eq_zero.1 (pow_eq_zero_iff (two_ne_zero) |>.1 this)
    exact hxy (Fl.ext ((hz x hx).trans (hz y hy).symm))
  have vpos : 0 < v.val := by
    have h1 : 0 < (1 + R.u) ^ (l.length + 6) * v.val := lt_of_lt_of_le (div_pos hpos hn) v2
    exact pos_of_mul_pos_right h1 (R.pw_pos _).le
  refine ⟨m, v, m.val - c, _, ?_, vpos, by ring, hmb, rfl, ?_, ?_⟩
  · rw [normalFromData, if_neg (by omega), hm]
    simp only [Option.bind_eq_bind, Option.bind_some, hv]
    rw [if_neg]
    intro h
    exact absurd ((Fl.le_iff _ _).1 h) (not_le.2 vpos)
  · rwa [← e]
  · rwa [← e]

/-- one summand of the statistic: `o` observed, `E` expected, `Ê` the computed expectation -/
theorem chi_term (hu : R.u < 1) (hp : ∀ x : Fl R, R.Near 2 (x ^ 2).val (x.val ^ 2)) {o e : Fl R} {E : K} {k : ℕ}
    (hE : 0 < E) (h : R.Near k e.val E) : R.Near (k + 5) ((o - e) ^ 2 / e).val ((o.val - e.val) ^ 2 / E) := by
  have h1 := (hp (o - e)).trans (Near.rnd_sq R (o.val - e.val))
  exact ((h1.div h hE).rnd hu).mono (by omega)

/-- the change of the statistic by relative errors of the expectations -/
theorem chi_shift {o e E γ : K} (hE : 0 < E) (hγ : 0 ≤ γ) (h : |e - E| ≤ γ * E) :
    |(o - e) ^ 2 / E - (o - E) ^ 2 / E| ≤ 2 * γ * |o - E| + γ ^ 2 * E := by
  have h1 : (o - e) ^ 2 / E - (o - E) ^ 2 / E = -(2 * (o - E) * ((e - E) / E)) + (e - E) ^ 2 / E := by
    field_simp
    ring
  have h2 : |(e - E) / E| ≤ γ := by
    rw [abs_div, abs_of_pos hE, div_le_iff₀ hE]
    exact h
  have h3 : (e - E) ^ 2 / E ≤ γ ^ 2 * E := by
    rw [div_le_iff₀ hE, ← sq_abs]
    have := pow_le_pow_left₀ (abs_nonneg _) h 2
    linarith
  rw [h1]
  refine (abs_add_le _ _).trans ?_
  rw [abs_neg, abs_mul, abs_mul, abs_two, abs_of_nonneg (div_nonneg (sq_nonneg (e - E)) hE.le)]
  have := mul_le_mul_of_nonneg_left h2 (by positivity : 0 ≤ 2 * |o - E|)
  linarith

theorem range_foldl_eq (x : List (Fl R)) :
    (List.range x.length).foldl (fun s l => s + x.getD l 0) 0 = dataSum x := by
  have e : (List.range x.length).map (fun l => x.getD l 0) = x := by
    apply List.ext_getElem
    · simp
    · intro i h1 h2
      simp [List.getD_eq_getElem?_getD, h2]
  rw [dataSum]
  conv_rhs => rw [← e]
  rw [List.foldl_map]

/-- **C113, chi-square test.** For counts that are not negative, with no class empty in both samples and no empty sample, the
test returns `m - 1` degrees of freedom, and the statistic differs from the exact one, `∑ (o - E)² / E` over both samples
with the exact expectations `E`, by a relative error of `(1 + u)^(4m + 9) - 1` after a shift of at most
`2 γ ∑ |o - E| + γ² ∑ E`, where `γ = (1 + u)^(2m + 4) - 1`. -/
theorem C113_chi_square (hu : R.u < 1) (hp : ∀ x : Fl R, R.Near 2 (x ^ 2).val (x.val ^ 2)) (x y : List (Fl R)) (m : ℕ)
    (hx : x.length = m) (hy : y.length = m) (hm : 0 < m) (hx0 : ∀ a ∈ x, 0 ≤ a.val) (hy0 : ∀ a ∈ y, 0 ≤ a.val)
    (hxy : ∀ j < m, 0 < (x.getD j 0).val + (y.getD j 0).val) (hxs : 0 < (x.map Fl.val).sum) (hys : 0 < (y.map Fl.val).sum)
    {Sx Sy : K} (eSx : Sx = (x.map Fl.val).sum) (eSy : Sy = (y.map Fl.val).sum) {ox oy Ex Ey : ℕ → K}
    (eox : ∀ j, ox j = (x.getD j 0).val) (eoy : ∀ j, oy j = (y.getD j 0).val)
    (eEx : ∀ j, Ex j = Sx * (ox j + oy j) / (Sx + Sy)) (eEy : ∀ j, Ey j = Sy * (ox j + oy j) / (Sx + Sy))
    {γ : K} (eγ : γ = (1 + R.u) ^ (2 * m + 4) - 1) :
    ∃ (c : Fl R) (S : K), chiSquareTest x y = some (m - 1, c) ∧
      c.val ≤ (1 + R.u) ^ (4 * m + 9) * S ∧ S ≤ (1 + R.u) ^ (4 * m + 9) * c.val ∧
      |S - ∑ j ∈ range m, ((ox j - Ex j) ^ 2 / Ex j + (oy j - Ey j) ^ 2 / Ey j)| ≤
        2 * γ * ∑ j ∈ range m, (|ox j - Ex j| + |oy j - Ey j|) + γ ^ 2 * ∑ j ∈ range m, (Ex j + Ey j) := by
  have hγ : 0 ≤ γ := by rw [eγ]; linarith [one_le_pow₀ (n := 2 * m + 4) R.one_le]
  have nx : R.Near m (dataSum x).val Sx := by
    have := Near.foldl (R := R) hu (fun a : Fl R => a) (fun a => a.val) 0 x (fun a ha => Near.refl (hx0 a ha))
    rwa [zero_add, hx, ← eSx] at this
  have ny : R.Near m (dataSum y).val Sy := by
    have := Near.foldl (R := R) hu (fun a : Fl R => a) (fun a => a.val) 0 y (fun a ha => Near.refl (hy0 a ha))
    rwa [zero_add, hy, ← eSy] at this
  rw [← eSx] at hxs
  rw [← eSy] at hys
  have hS : 0 < Sx + Sy := by linarith
  have nn : R.Near (m + 1) (dataSum x + dataSum y).val (Sx + Sy) := (nx.add ny).rnd hu
  have hox : ∀ j, 0 ≤ ox j := by
    intro j
    rw [eox, List.getD_eq_getElem?_getD]
    rcases h : x[j]? with _ | a
    · simp [Fl.zero_val]
    · exact hx0 a (List.mem_of_getElem? h)
  have hoy : ∀ j, 0 ≤ oy j := by
    intro j
    rw [eoy, List.getD_eq_getElem?_getD]
    rcases h : y[j]? with _ | a
    · simp [Fl.zero_val]
    · exact hy0 a (List.mem_of_getElem? h)
  have hj : ∀ j < m, 0 < ox j + oy j := by
    intro j hj
    rw [eox, eoy]
    exact hxy j hj
  have nj : ∀ j, R.Near 1 (x.getD j 0 + y.getD j 0).val (ox j + oy j) := by
    intro j
    have := Near.of_rnd (R := R) hu (add_nonneg (hox j) (hoy j))
    rwa [eox, eoy] at this ⊢
  set ex : ℕ → Fl R := fun j => dataSum x * (x.getD j 0 + y.getD j 0) / (dataSum x + dataSum y) with hex
  set ey : ℕ → Fl R := fun j => dataSum y * (x.getD j 0 + y.getD j 0) / (dataSum x + dataSum y) with hey
  have nex : ∀ j, R.Near (2 * m + 4) (ex j).val (Ex j) := by
    intro j
    rw [eEx]
    exact ((((nx.mul (nj j)).rnd hu).div nn hS).rnd hu).mono (by omega)
  have ney : ∀ j, R.Near (2 * m + 4) (ey j).val (Ey j) := by
    intro j
    rw [eEy]
    exact ((((ny.mul (nj j)).rnd hu).div nn hS).rnd hu).mono (by omega)
  have hEx : ∀ j < m, 0 < Ex j := fun j h => by rw [eEx]; exact div_pos (mul_pos hxs (hj j h)) hS
  have hEy : ∀ j < m, 0 < Ey j := fun j h => by rw [eEy]; exact div_pos (mul_pos hys (hj j h)) hS
  have hn0 : dataSum x + dataSum y ≠ 0 := fun h => by
    have := nn.pos hS
    rw [h, Fl.zero_val] at this
    exact lt_irrefl _ this
  have hne : ∀ (e : Fl R) (E : K), 0 < E → R.Near (2 * m + 4) e.val E → e ≠ 0 := fun e E h1 h2 h => by
    have := h2.pos h1
    rw [h, Fl.zero_val] at this
    exact lt_irrefl _ this
  set T : ℕ → K := fun j => (ox j - (ex j).val) ^ 2 / Ex j + (oy j - (ey j).val) ^ 2 / Ey j with hT
  obtain ⟨c, h1, h2⟩ := forRange_inv (a := 0) (b := m) (s := (0 : Fl R))
    (f := fun (chi : Fl R) j =>
        forRange 0 2 (fun (chi : Fl R) k =>
          let n_jk := if k = 0 then x.getD j 0 else y.getD j 0
          let n_k := if k = 0 then (List.range x.length).foldl (fun s l => s + x.getD l 0) 0
            else (List.range x.length).foldl (fun s l => s + y.getD l 0) 0
          let n_j := x.getD j 0 + y.getD j 0
          if dataSum x + dataSum y = 0 then none
          else
            let n_jks := n_k * n_j / (dataSum x + dataSum y)
            if n_jks = 0 then none else some (chi + (n_jk - n_jks) ^ 2 / n_jks)) chi)
    (fun j c => R.Near (2 * m + 9 + 2 * j) c.val (∑ i ∈ range j, T i)) (by omega) (by simp [Near, Fl.zero_val]) (by
      intro j c _ hjm hc
      refine ⟨c + (x.getD j 0 - ex j) ^ 2 / ex j + (y.getD j 0 - ey j) ^ 2 / ey j, ?_, ?_⟩
      · have e1 : (List.range x.length).foldl (fun s l => s + x.getD l 0) 0 = dataSum x := range_foldl_eq x
        have e2 : (List.range x.length).foldl (fun s l => s + y.getD l 0) 0 = dataSum y := by
          rw [hx, ← hy]
          exact range_foldl_eq y
        have f1 := hne _ _ (hEx j hjm) (nex j)
        have f2 := hne _ _ (hEy j hjm) (ney j)
        have g1 : dataSum x * (x.getD j 0 + y.getD j 0) / (dataSum x + dataSum y) = ex j := rfl
        have g2 : dataSum y * (x.getD j 0 + y.getD j 0) / (dataSum x + dataSum y) = ey j := rfl
        simp only [e1, e2, if_neg hn0]
        rw [forRange_step (by omega)]
        simp only [if_true, g1, if_neg f1, Option.bind_some]
        rw [forRange_step (by omega)]
        simp only [Nat.zero_add, one_ne_zero, if_false, g2, if_neg f2, Option.bind_some]
        rw [forRange_empty (by omega)]
      · have t1 := chi_term hu hp (o := x.getD j 0) (hEx j hjm) (nex j)
        have t2 := chi_term hu hp (o := y.getD j 0) (hEy j hjm) (ney j)
        rw [← eox] at t1
        rw [← eoy] at t2
        have a1 := (hc.add (t1.mono (by omega : _ ≤ 2 * m + 9 + 2 * j))).rnd hu
        have a2 := (a1.add (t2.mono (by omega : _ ≤ 2 * m + 9 + 2 * j + 1))).rnd hu
        rw [sum_range_succ]
        have e3 : ∑ i ∈ range j, T i + T j = ∑ i ∈ range j, T i + (ox j - (ex j).val) ^ 2 / Ex j +
            (oy j - (ey j).val) ^ 2 / Ey j := by
          rw [hT]
          ring
        rw [e3]
        exact a2.mono (by omega))
  refine ⟨c, ∑ j ∈ range m, T j, ?_, ?_⟩
  · rw [chiSquareTest, if_neg (by simp [hx, hy]), if_neg (by omega)]
    rw [hx] at h1
    simp only [hx, hy, h1]
    rfl
  · have h3 := h2.mono (by omega : _ ≤ 4 * m + 9)
    refine ⟨h3.2.1, h3.2.2, ?_⟩
    rw [← sum_sub_distrib, mul_sum, mul_sum, ← sum_add_distrib]
    refine (abs_sum_le_sum_abs _ _).trans (sum_le_sum fun j hj => ?_)
    have hjm := mem_range.1 hj
    have c1 := (nex j).abs_sub_le
    have c2 := (ney j).abs_sub_le
    rw [← eγ] at c1 c2
    have d1 := chi_shift (o := ox j) (hEx j hjm) hγ c1
    have d2 := chi_shift (o := oy j) (hEy j hjm) hγ c2
    have e4 : T j - ((ox j - Ex j) ^ 2 / Ex j + (oy j - Ey j) ^ 2 / Ey j) =
        ((ox j - (ex j).val) ^ 2 / Ex j - (ox j - Ex j) ^ 2 / Ex j) +
          ((oy j - (ey j).val) ^ 2 / Ey j - (oy j - Ey j) ^ 2 / Ey j) := by
      rw [hT]
      ring
    rw [e4]
    refine (abs_add_le _ _).trans ?_
    linarith

end Stat

namespace Stat
open Rounding

/-- the rounded power, correct to the last bit: satisfies the hypothesis of the theorems -/
local instance flPow {K : Type} [Field K] [LinearOrder K] {R : Rounding K} : Pow (Fl R) ℕ := ⟨fun x n => ⟨R.rnd (x.val ^ n)⟩⟩

theorem flPow_near {K : Type} [Field K] [LinearOrder K] [IsStrictOrderedRing K] {R : Rounding K} (hu : R.u < 1) (x : Fl R) :
    R.Near 2 (x ^ 2).val (x.val ^ 2) := (Near.of_rnd hu (sq_nonneg x.val)).mono (by norm_num)

/-- `1, 2, 3, 6` in binary arithmetic with 53 bits: mean `3`, variance `14 / 3` rounded -/
example : normalFromData [(⟨1⟩ : Fl f64), ⟨2⟩, ⟨3⟩, ⟨6⟩] = some (⟨3⟩, ⟨f64.rnd (14 / 3)⟩) := by
  decide +kernel

/-- a constant sample: the exact variance is `0` and `from_data` panics, but with rounding the mean of three times `0.1` is
not `0.1`, and a normal distribution with a tiny variance is returned -/
theorem C113_constant_violated : ∃ (a : Fl f64) (m v : Fl f64), f64.rnd a.val = a.val ∧
    normalFromData [a, a, a] = some (m, v) ∧ m ≠ a ∧ 0 < v.val := by
  let a : Fl f64 := ⟨3602879701896397 / 36028797018963968⟩
  refine ⟨a, ((normalFromData [a, a, a]).getD (0, 0)).1, ((normalFromData [a, a, a]).getD (0, 0)).2, ?_⟩
  decide +kernel

/-- the counts `10, 20, 30` and `6, 12, 42` in binary arithmetic with 53 bits -/
example : chiSquareTest [(⟨10⟩ : Fl f64), ⟨20⟩, ⟨30⟩] [⟨6⟩, ⟨12⟩, ⟨42⟩] = some (2, ⟨5⟩) := by
  decide +kernel

end Stat
end Verif
