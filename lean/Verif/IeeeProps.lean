import Verif.IeeeModel
import Verif.FloatProps
import Verif.OrthModel
import Verif.FloatCx

/-!
# Property C109: overflow, underflow, infinities and NaN
-/

namespace Verif
open Finset

namespace Ie
variable {p e : ℕ}

theorem add_fin (x y : ℚ) : (fin x + fin y : Ie p e) = round p e (x + y) := rfl
theorem sub_fin (x y : ℚ) : (fin x - fin y : Ie p e) = round p e (x - y) := by rw [sub_eq_add_neg]; rfl
theorem mul_fin (x y : ℚ) : (fin x * fin y : Ie p e) = round p e (x * y) := rfl
theorem zero_eq : (0 : Ie p e) = fin 0 := rfl
theorem nan_add (x : Ie p e) : nan + x = nan := by cases x <;> rfl
theorem add_nan (x : Ie p e) : x + nan = nan := by cases x <;> rfl
theorem nan_mul (x : Ie p e) : nan * x = nan := by cases x <;> rfl
theorem mul_nan (x : Ie p e) : x * nan = nan := by cases x <;> rfl
theorem nan_div (x : Ie p e) : nan / x = nan := by cases x <;> rfl

/-- a multiple of the spacing of the subnormal numbers -/
def Sub (p e : ℕ) (x : ℚ) : Prop := ∃ n : ℤ, x = n * 2 ^ (3 - e - p : ℤ)

theorem sub_zero' : Sub p e 0 := ⟨0, by simp⟩

theorem Sub.add {x y : ℚ} (hx : Sub p e x) (hy : Sub p e y) : Sub p e (x + y) := by
  obtain ⟨n, rfl⟩ := hx
  obtain ⟨m, rfl⟩ := hy
  exact ⟨n + m, by push_cast; ring⟩

theorem sub_of_ge {s : ℤ} (h : 3 - (e : ℤ) - p ≤ s) (n : ℤ) : Sub p e (n * 2 ^ s) := by
  obtain ⟨j, hj⟩ : ∃ j : ℕ, s - (3 - e - p) = j := ⟨(s - (3 - e - p)).toNat, by omega⟩
  refine ⟨n * 2 ^ j, ?_⟩
  rw [show s = j + (3 - e - p) by omega, zpow_add₀ (by norm_num), zpow_natCast]
  push_cast
  ring

/-- the normal range: the spacing is that of the unbounded format -/
theorem spacing_normal {x : ℚ} (hx : (2 : ℚ) ^ (2 - e : ℤ) ≤ |x|) : spacing p e x = ulp p x := by
  have h0 : 0 < |x| := lt_of_lt_of_le (zpow_pos (by norm_num) _) hx
  have : (2 - e : ℤ) ≤ Int.log 2 |x| := (Int.zpow_le_iff_le_log (b := 2) (by norm_num) h0).1 (by simpa using hx)
  rw [spacing, ulp, max_eq_left (by omega)]

/-- rounding agrees with that of the unbounded format: in the normal range, and for multiples of the smallest number -/
theorem rounded_eq {x : ℚ} (hx : (2 : ℚ) ^ (2 - e : ℤ) ≤ |x| ∨ Sub p e x) :
    nearestEven (x / spacing p e x) * spacing p e x = roundBits p x ∧ Sub p e (roundBits p x) := by
  by_cases hn : (2 : ℚ) ^ (2 - e : ℤ) ≤ |x|
  · have h0 : 0 < |x| := lt_of_lt_of_le (zpow_pos (by norm_num) _) hn
    have : (2 - e : ℤ) ≤ Int.log 2 |x| := (Int.zpow_le_iff_le_log (b := 2) (by norm_num) h0).1 (by simpa using hn)
    rw [spacing_normal hn]
    refine ⟨rfl, ?_⟩
    rw [roundBits, ulp]
    exact sub_of_ge (by omega) _
  · have hs := hx.resolve_left hn
    by_cases x0 : x = 0
    · subst x0
      rw [roundBits_zero]
      simp [nearestEven, sub_zero']
    obtain ⟨n, hx⟩ := hs
    have hl : Int.log 2 |x| < 2 - e := (Int.lt_zpow_iff_log_lt (b := 2) (by norm_num) (abs_pos.2 x0)).1
      (by simpa using not_le.1 hn)
    have hsp : spacing p e x = 2 ^ (3 - e - p : ℤ) := by rw [spacing, max_eq_right (by omega)]
    have hr : roundBits p x = x := by
      obtain ⟨j, hj⟩ : ∃ j : ℕ, (3 - e - p : ℤ) - (Int.log 2 |x| + 1 - p) = j :=
        ⟨((3 - e - p : ℤ) - (Int.log 2 |x| + 1 - p)).toNat, by omega⟩
      refine roundBits_of_int (n := n * 2 ^ j) ?_
      rw [ulp]
      push_cast
      rw [mul_assoc, ← zpow_natCast (2 : ℚ) j, ← zpow_add₀ (by norm_num), ← hj]
      rw [show (3 - e - p : ℤ) - (Int.log 2 |x| + 1 - p) + (Int.log 2 |x| + 1 - p) = 3 - e - p by ring]
      exact hx
    rw [hr, hsp]
    refine ⟨?_, n, hx⟩
    have h2 : (2 : ℚ) ^ (3 - e - p : ℤ) ≠ 0 := (zpow_pos (by norm_num) _).ne'
    have : x / 2 ^ (3 - e - p : ℤ) = (n : ℚ) := by rw [div_eq_iff h2]; exact hx
    rw [this, nearestEven_int]
    exact hx.symm

theorem round_fin {x : ℚ} (hx : (2 : ℚ) ^ (2 - e : ℤ) ≤ |x| ∨ Sub p e x) (hlt : |roundBits p x| < 2 ^ e) :
    round p e x = fin (roundBits p x) := by
  rw [round, (rounded_eq hx).1, if_neg (not_le.2 hlt)]

/-- overflow -/
theorem round_inf (hp : 1 ≤ p) (he : 1 ≤ e) {x : ℚ} (hx : 2 ^ e ≤ |x|) : round p e x = inf (decide (x < 0)) := by
  have h2 : (2 : ℚ) ^ (2 - e : ℤ) ≤ |x| := by
    refine le_trans ?_ hx
    rw [← zpow_natCast (2 : ℚ) e]
    exact zpow_le_zpow_right₀ (by norm_num) (by omega)
  have h0 : 0 < |x| := lt_of_lt_of_le (by positivity) hx
  have hl : (e : ℤ) ≤ Int.log 2 |x| := (Int.zpow_le_iff_le_log (b := 2) (by norm_num) h0).1 (by simpa using hx)
  rw [round, (rounded_eq (Or.inl h2)).1, if_pos]
  refine le_trans ?_ (roundBits_bounds hp (abs_pos.1 h0)).1
  rw [← zpow_natCast (2 : ℚ) e]
  exact zpow_le_zpow_right₀ (by norm_num) hl

/-- underflow: numbers below half of the smallest positive number become zero -/
theorem round_tiny {x : ℚ} (hx : |x| < 2 ^ (2 - e - p : ℤ)) : round p e x = fin 0 := by
  by_cases x0 : x = 0
  · subst x0
    have : (0 : ℚ) < 2 ^ e := by positivity
    simp [round, nearestEven, this.not_ge]
  have hl : Int.log 2 |x| < 2 - e - p := (Int.lt_zpow_iff_log_lt (b := 2) (by norm_num) (abs_pos.2 x0)).1 (by simpa using hx)
  have hsp : spacing p e x = 2 ^ (3 - e - p : ℤ) := by rw [spacing, max_eq_right (by omega)]
  have h2 : (0 : ℚ) < 2 ^ (2 - e - p : ℤ) := zpow_pos (by norm_num) _
  have h3 : (2 : ℚ) ^ (3 - e - p : ℤ) = 2 * 2 ^ (2 - e - p : ℤ) := by
    rw [show (3 - e - p : ℤ) = 1 + (2 - e - p) by ring, zpow_add₀ (by norm_num), zpow_one]
  have hy : |x / 2 ^ (3 - e - p : ℤ)| < 1 / 2 := by
    rw [h3, abs_div, abs_of_pos (by positivity : (0 : ℚ) < 2 * 2 ^ (2 - e - p : ℤ)), div_lt_iff₀ (by positivity)]
    linarith
  have hn : nearestEven (x / 2 ^ (3 - e - p : ℤ)) = 0 := by
    have e1 := nearestEven_err (x / 2 ^ (3 - e - p : ℤ))
    generalize nearestEven (x / 2 ^ (3 - e - p : ℤ)) = n at e1 ⊢
    have a := abs_le.1 e1
    have b := abs_lt.1 hy
    have c1 : (n : ℚ) < 1 := by linarith
    have c2 : (-1 : ℚ) < n := by linarith
    have c1' : n < 1 := by exact_mod_cast c1
    have c2' : -1 < n := by exact_mod_cast c2
    omega
  have : (0 : ℚ) < 2 ^ e := by positivity
  rw [round, hsp, hn]
  simp [this.not_ge]

/-- the sum of products, as long as nothing overflows and no product underflows: the result is that of the unbounded
    format -/
theorem accum_ie (hp : 1 ≤ p) (a b : ℕ → ℚ) (n : ℕ)
    (hprod : ∀ k < n, a k * b k = 0 ∨ (2 : ℚ) ^ (2 - e : ℤ) ≤ |a k * b k|)
    (hsum : (1 + (2 ^ p)⁻¹) ^ n * ∑ k ∈ range n, |a k * b k| < (2 : ℚ) ^ e) :
    Mat.accum (fun k => (fin (a k) * fin (b k) : Ie p e)) n =
      fin (Mat.accum (fun k => ((⟨a k⟩ : Fl (binary ℚ p hp)) * ⟨b k⟩)) n).val ∧
      Sub p e (Mat.accum (fun k => ((⟨a k⟩ : Fl (binary ℚ p hp)) * ⟨b k⟩)) n).val := by
  have u0 : (0 : ℚ) ≤ (2 ^ p)⁻¹ := by positivity
  induction n with
  | zero => exact ⟨rfl, sub_zero'⟩
  | succ n ih =>
    have hS0 : 0 ≤ ∑ k ∈ range n, |a k * b k| := sum_nonneg fun _ _ => abs_nonneg _
    have hone : (1 : ℚ) ≤ (1 + (2 ^ p)⁻¹) ^ n := one_le_pow₀ (by linarith)
    have hlast : |a n * b n| ≤ ∑ k ∈ range (n + 1), |a k * b k| :=
      single_le_sum (f := fun k => |a k * b k|) (fun _ _ => abs_nonneg _) (self_mem_range_succ n)
    have hle : ∑ k ∈ range n, |a k * b k| ≤ ∑ k ∈ range (n + 1), |a k * b k| := by
      rw [sum_range_succ]; linarith [abs_nonneg (a n * b n)]
    obtain ⟨ih1, ih2⟩ := ih (fun k hk => hprod k (by omega)) (by
      refine lt_of_le_of_lt ?_ hsum
      rw [pow_succ]
      have : (1 + (2 ^ p)⁻¹) ^ n * ∑ k ∈ range n, |a k * b k| ≤ (1 + (2 ^ p)⁻¹) ^ n * ∑ k ∈ range (n + 1), |a k * b k| := by
        gcongr
      have h3 : 0 ≤ (1 + (2 ^ p : ℚ)⁻¹) ^ n * ∑ k ∈ range (n + 1), |a k * b k| :=
        mul_nonneg (by positivity) (hS0.trans hle)
      nlinarith)
    -- the product
    have hP : (fin (a n) * fin (b n) : Ie p e) = fin (roundBits p (a n * b n)) ∧ Sub p e (roundBits p (a n * b n)) := by
      have hc : (2 : ℚ) ^ (2 - e : ℤ) ≤ |a n * b n| ∨ Sub p e (a n * b n) := by
        rcases hprod n (by omega) with h | h
        · right; rw [h]; exact sub_zero'
        · exact Or.inl h
      refine ⟨?_, (rounded_eq hc).2⟩
      rw [mul_fin]
      refine round_fin hc ?_
      have h1 := (binary ℚ p hp).err (a n * b n)
      have h2 : |roundBits p (a n * b n)| ≤ (1 + (2 ^ p)⁻¹) * |a n * b n| := by
        have := abs_sub_abs_le_abs_sub (roundBits p (a n * b n)) (a n * b n)
        have h1' : |roundBits p (a n * b n) - a n * b n| ≤ (2 ^ p)⁻¹ * |a n * b n| := h1
        linarith
      refine lt_of_le_of_lt (h2.trans ?_) hsum
      have : (1 + (2 ^ p : ℚ)⁻¹) ≤ (1 + (2 ^ p)⁻¹) ^ (n + 1) := by
        rw [pow_succ]; nlinarith
      exact mul_le_mul this hlast (abs_nonneg _) (by positivity)
    -- the sum
    have hacc := (binary ℚ p hp).accum_err (fun k => ⟨a k⟩) (fun k => ⟨b k⟩) (n + 1)
    have hbound : |(Mat.accum (fun k => ((⟨a k⟩ : Fl (binary ℚ p hp)) * ⟨b k⟩)) (n + 1)).val| < 2 ^ e := by
      refine lt_of_le_of_lt ?_ hsum
      have h1 := abs_sub_abs_le_abs_sub (Mat.accum (fun k => ((⟨a k⟩ : Fl (binary ℚ p hp)) * ⟨b k⟩)) (n + 1)).val
        (∑ k ∈ range (n + 1), a k * b k)
      have h2 : |∑ k ∈ range (n + 1), a k * b k| ≤ ∑ k ∈ range (n + 1), |a k * b k| := abs_sum_le_sum_abs _ _
      have h3 : (binary ℚ p hp).gam (n + 1) = (1 + (2 ^ p)⁻¹) ^ (n + 1) - 1 := rfl
      rw [h3] at hacc
      simp only at hacc
      linarith
    have e1 : Mat.accum (fun k => (fin (a k) * fin (b k) : Ie p e)) (n + 1) =
        Mat.accum (fun k => (fin (a k) * fin (b k) : Ie p e)) n + fin (a n) * fin (b n) := rfl
    have e2 : (Mat.accum (fun k => ((⟨a k⟩ : Fl (binary ℚ p hp)) * ⟨b k⟩)) (n + 1)).val =
        roundBits p ((Mat.accum (fun k => ((⟨a k⟩ : Fl (binary ℚ p hp)) * ⟨b k⟩)) n).val + roundBits p (a n * b n)) := rfl
    rw [e2] at hbound ⊢
    have hs := ih2.add hP.2
    rw [e1, ih1, hP.1, add_fin]
    exact ⟨round_fin (Or.inr hs) hbound, (rounded_eq (Or.inr hs)).2⟩

/-- a NaN among the summands -/
theorem accum_nan (g : ℕ → Ie p e) {n k : ℕ} (hk : k < n) (h : g k = nan) : Mat.accum g n = nan := by
  induction n with
  | zero => omega
  | succ n ih =>
    show Mat.accum g n + g n = nan
    by_cases hkn : k = n
    · rw [← hkn, h, add_nan]
    · rw [ih (by omega), nan_add]

theorem mul_inf (hp : 1 ≤ p) (he : 1 ≤ e) {x y : ℚ} (h : 2 ^ e ≤ |x * y|) :
    (fin x * fin y : Ie p e) = inf (decide (x * y < 0)) := by
  rw [mul_fin, round_inf hp he h]

theorem sq_large {x : ℚ} (hx : (2 : ℚ) ^ 512 ≤ |x|) {y : ℚ} (hy : (2 : ℚ) ^ 512 ≤ |y|) : (2 : ℚ) ^ 1024 ≤ |x * y| := by
  rw [abs_mul, show (1024 : ℕ) = 512 + 512 by norm_num, pow_add]
  exact mul_le_mul hx hy (by positivity) (abs_nonneg _)

theorem mul_self_inf {x : ℚ} (hx : (2 : ℚ) ^ 512 ≤ |x|) : (fin x * fin x : IeF64) = inf false := by
  rw [mul_inf (by norm_num) (by norm_num) (sq_large hx hx)]
  have := mul_self_nonneg x
  simp [this.not_gt]

theorem mul_self_tiny {x : ℚ} (hx : |x| < (2 : ℚ) ^ (-538 : ℤ)) : (fin x * fin x : IeF64) = 0 := by
  rw [mul_fin]
  refine round_tiny ?_
  have h0 : (0 : ℚ) < 2 ^ (-538 : ℤ) := by positivity
  rw [abs_mul, show ((2 : ℤ) - (1024 : ℕ) - (53 : ℕ)) = -538 + -537 by norm_num, zpow_add₀ (by norm_num)]
  have h1 : (2 : ℚ) ^ (-538 : ℤ) ≤ 2 ^ (-537 : ℤ) := zpow_le_zpow_right₀ (by norm_num) (by norm_num)
  nlinarith [abs_nonneg x]

end Ie

open Ie

/-- **C109** the matrix product in `f32` and `f64`, with the bounded exponent: if no product of two entries underflows
    (each is zero or at least `2^(2 - e)`, the smallest normal number) and the sums of the absolute products times
    `(1 + u)^n` stay below `2^e`, then all entries of the result are finite, and their error is at most `(1 + u)^n - 1`
    times the sum of the absolute products, `u = 2^-p`. -/
theorem C109_mul {p e : ℕ} (hp : 1 ≤ p) {m n q : ℕ} {A B : Mat (Ie p e)} {M : Matrix (Fin m) (Fin n) ℚ}
    {N : Matrix (Fin n) (Fin q) ℚ} (hA : Repr A fun i j => fin (M i j)) (hB : Repr B fun i j => fin (N i j))
    (hprod : ∀ i k j, M i k * N k j = 0 ∨ (2 : ℚ) ^ (2 - e : ℤ) ≤ |M i k * N k j|)
    (hsum : ∀ i j, (1 + (2 ^ p)⁻¹) ^ n * ∑ k, |M i k * N k j| < (2 : ℚ) ^ e) :
    ∃ C, ∃ P : Matrix (Fin m) (Fin q) ℚ, A.mul B = some C ∧ Repr C (fun i j => fin (P i j)) ∧
      ∀ i j, |P i j - ∑ k, M i k * N k j| ≤ ((1 + (2 ^ p)⁻¹) ^ n - 1) * ∑ k, |M i k * N k j| := by
  obtain ⟨C, h1, h2⟩ := Mat.mul_accum hA.is hB.is
  let a : Fin m → ℕ → ℚ := fun i k => if h : k < n then M i ⟨k, h⟩ else 0
  let b : Fin q → ℕ → ℚ := fun j k => if h : k < n then N ⟨k, h⟩ j else 0
  have ea : ∀ i (k : Fin n), a i k = M i k := fun i k => by simp [a]
  have eb : ∀ j (k : Fin n), b j k = N k j := fun j k => by simp [b]
  have key := fun i j => accum_ie (p := p) (e := e) hp (a i) (b j) n
    (by
      intro k hk
      have := hprod i ⟨k, hk⟩ j
      rwa [← ea, ← eb] at this)
    (by
      have := hsum i j
      rw [← Fin.sum_univ_eq_sum_range (fun k => |a i k * b j k|)]
      simpa only [ea, eb] using this)
  refine ⟨C, fun i j => (Mat.accum (fun k => ((⟨a i k⟩ : Fl (binary ℚ p hp)) * ⟨b j k⟩)) n).val, h1, ?_, ?_⟩
  · refine h2.repr_of fun i j => ?_
    rw [← (key i j).1]
    have : ∀ l ≤ n, Mat.accum (fun k => extM (fun i j => (fin (M i j) : Ie p e)) i k *
        extM (fun i j => (fin (N i j) : Ie p e)) k j) l = Mat.accum (fun k => (fin (a i k) * fin (b j k) : Ie p e)) l := by
      intro l
      induction l with
      | zero => intro _; rfl
      | succ l ih =>
        intro hl
        show _ + _ = _ + _
        rw [ih (by omega)]
        congr 1
        have e1 := extM_apply (fun i j => (fin (M i j) : Ie p e)) i ⟨l, by omega⟩
        have e2 := extM_apply (fun i j => (fin (N i j) : Ie p e)) ⟨l, by omega⟩ j
        simp only at e1 e2
        show extM (fun i j => (fin (M i j) : Ie p e)) i l * extM (fun i j => (fin (N i j) : Ie p e)) l j = _
        rw [e1, e2]
        simp [a, b, show l < n by omega]
    exact this n le_rfl
  · intro i j
    have := (binary ℚ p hp).accum_err (fun k => ⟨a i k⟩) (fun k => ⟨b j k⟩) n
    simp only at this
    rw [← Fin.sum_univ_eq_sum_range (fun k => a i k * b j k), ← Fin.sum_univ_eq_sum_range (fun k => |a i k * b j k|)] at this
    simp only [ea, eb] at this
    exact this

/-- **C109** NaN propagates through the matrix product: if a product of two entries is NaN (one factor is NaN, or the
    factors are an infinity and zero), so is the entry of the result. -/
theorem C109_mul_nan {p e m n q : ℕ} {A B : Mat (Ie p e)} {M : Matrix (Fin m) (Fin n) (Ie p e)}
    {N : Matrix (Fin n) (Fin q) (Ie p e)} (hA : Repr A M) (hB : Repr B N) :
    ∃ C, ∃ P : Matrix (Fin m) (Fin q) (Ie p e), A.mul B = some C ∧ Repr C P ∧
      ∀ i k j, (M i k = nan ∨ N k j = nan ∨ (M i k = 0 ∧ ∃ s, N k j = inf s) ∨ (N k j = 0 ∧ ∃ s, M i k = inf s)) →
        P i j = nan := by
  obtain ⟨C, h1, h2⟩ := Mat.mul_accum hA.is hB.is
  refine ⟨C, _, h1, h2.repr, ?_⟩
  intro i k j h
  refine accum_nan _ k.2 ?_
  simp only [extM_apply]
  rcases h with h | h | ⟨h, s, h'⟩ | ⟨h, s, h'⟩
  · rw [h, nan_mul]
  · rw [h, mul_nan]
  · rw [h, h']; rfl
  · rw [h, h']; rfl

theorem abs_list_sum_le (l : List ℚ) : |l.sum| ≤ (l.map fun x => |x|).sum := by
  induction l with
  | nil => simp
  | cons a l ih => simp only [List.map_cons, List.sum_cons]; exact (abs_add_le _ _).trans (by linarith)

theorem foldl_ie {p e : ℕ} (hp : 1 ≤ p) (l : List ℚ) (hl : ∀ x ∈ l, ∃ k : ℤ, x = k * 2 ^ (3 - e - p : ℤ))
    (hsum : (1 + (2 ^ p)⁻¹) ^ l.length * (l.map fun x => |x|).sum < (2 : ℚ) ^ e) :
    Stat.dataSum (l.map fun x => (fin x : Ie p e)) =
        fin (Stat.dataSum (l.map fun x => (⟨x⟩ : Fl (binary ℚ p hp)))).val ∧
      Ie.Sub p e (Stat.dataSum (l.map fun x => (⟨x⟩ : Fl (binary ℚ p hp)))).val := by
  have u0 : (0 : ℚ) ≤ (2 ^ p)⁻¹ := by positivity
  induction l using List.reverseRecOn with
  | nil => exact ⟨rfl, sub_zero'⟩
  | append_singleton l x ih =>
    have hS0 : 0 ≤ (l.map fun x => |x|).sum := List.sum_nonneg (by simp)
    have hone : (1 : ℚ) ≤ (1 + (2 ^ p)⁻¹) ^ l.length := one_le_pow₀ (by linarith)
    obtain ⟨ih1, ih2⟩ := ih (fun y hy => hl y (by simp [hy])) (by
      refine lt_of_le_of_lt ?_ hsum
      rw [List.length_append, List.map_append, List.sum_append]
      simp only [List.length_singleton, List.map_cons, List.map_nil, List.sum_cons, List.sum_nil, pow_succ, add_zero]
      have h1 := abs_nonneg x
      have h2 : 0 ≤ (1 + (2 ^ p : ℚ)⁻¹) ^ l.length * (l.map fun x => |x|).sum := by positivity
      have h3 : 0 ≤ (1 + (2 ^ p : ℚ)⁻¹) ^ l.length * |x| := by positivity
      nlinarith)
    have hb : |(Stat.dataSum ((l ++ [x]).map fun x => (⟨x⟩ : Fl (binary ℚ p hp)))).val| < 2 ^ e := by
      refine lt_of_le_of_lt ?_ hsum
      have h1 := C88_sum ((l ++ [x]).map fun x => (⟨x⟩ : Fl (binary ℚ p hp)))
      have e1 : ((l ++ [x]).map fun x => (⟨x⟩ : Fl (binary ℚ p hp))).map Fl.val = l ++ [x] := by
        rw [List.map_map]; exact List.map_id _
      have e2 : (((l ++ [x]).map fun x => (⟨x⟩ : Fl (binary ℚ p hp))).map fun x => |x.val|) = (l ++ [x]).map fun x => |x| := by
        rw [List.map_map]; rfl
      have e3 : (binary ℚ p hp).u = (2 ^ p)⁻¹ := rfl
      rw [e1, e2, List.length_map, e3] at h1
      have h2 : |(l ++ [x]).sum| ≤ ((l ++ [x]).map fun x => |x|).sum := abs_list_sum_le _
      have h3 := abs_sub_abs_le_abs_sub (Stat.dataSum ((l ++ [x]).map fun x => (⟨x⟩ : Fl (binary ℚ p hp)))).val (l ++ [x]).sum
      linarith
    have e1 : (Stat.dataSum ((l ++ [x]).map fun x => (⟨x⟩ : Fl (binary ℚ p hp)))).val =
        roundBits p ((Stat.dataSum (l.map fun x => (⟨x⟩ : Fl (binary ℚ p hp)))).val + x) := by
      simp only [Stat.dataSum, List.map_append, List.map_cons, List.map_nil, List.foldl_append, List.foldl_cons,
        List.foldl_nil]
      rfl
    have e2 : Stat.dataSum ((l ++ [x]).map fun x => (fin x : Ie p e)) = Stat.dataSum (l.map fun x => (fin x : Ie p e)) + fin x := by
      simp only [Stat.dataSum, List.map_append, List.map_cons, List.map_nil, List.foldl_append, List.foldl_cons,
        List.foldl_nil]
    rw [e1] at hb ⊢
    have hs := ih2.add (hl x (by simp))
    rw [e2, ih1, add_fin]
    exact ⟨round_fin (Or.inr hs) hb, (rounded_eq (Or.inr hs)).2⟩

/-- **C109** the sum of a list of `f32` or `f64` numbers (multiples of the smallest positive number `2^(3 - e - p)`): if
    the sum of the absolute values times `(1 + u)^n` is below `2^e` there is no overflow, and the error is at most
    `(1 + u)^n - 1` times the sum of the absolute values.  Additions do not underflow. -/
theorem C109_sum {p e : ℕ} (hp : 1 ≤ p) (l : List ℚ) (hl : ∀ x ∈ l, ∃ k : ℤ, x = k * 2 ^ (3 - e - p : ℤ))
    (hsum : (1 + (2 ^ p)⁻¹) ^ l.length * (l.map fun x => |x|).sum < (2 : ℚ) ^ e) :
    ∃ s : ℚ, Stat.dataSum (l.map fun x => (fin x : Ie p e)) = fin s ∧
      |s - l.sum| ≤ ((1 + (2 ^ p)⁻¹) ^ l.length - 1) * (l.map fun x => |x|).sum := by
  refine ⟨_, (foldl_ie hp l hl hsum).1, ?_⟩
  have h1 := C88_sum (l.map fun x => (⟨x⟩ : Fl (binary ℚ p hp)))
  have e1 : (l.map fun x => (⟨x⟩ : Fl (binary ℚ p hp))).map Fl.val = l := by
    rw [List.map_map]; exact List.map_id _
  have e2 : ((l.map fun x => (⟨x⟩ : Fl (binary ℚ p hp))).map fun x => |x.val|) = l.map fun x => |x| := by
    rw [List.map_map]; rfl
  have e3 : (binary ℚ p hp).u = (2 ^ p)⁻¹ := rfl
  rw [e1, e2, List.length_map, e3] at h1
  exact h1

theorem foldl_nan {p e : ℕ} (l : List (Ie p e)) : l.foldl (fun sum x => sum + x) nan = nan := by
  induction l with
  | nil => rfl
  | cons x l ih => rw [List.foldl_cons, nan_add, ih]

/-- **C109** the mean of observations with a NaN among them is NaN -/
theorem C109_mean_nan {p e : ℕ} {l : List (Ie p e)} (h : nan ∈ l) : Stat.calcMean l = some nan := by
  have hs : ∀ (l : List (Ie p e)) a, nan ∈ l → l.foldl (fun sum x => sum + x) a = nan := by
    intro l
    induction l with
    | nil => intro a h; simp at h
    | cons x l ih =>
      intro a h
      rw [List.foldl_cons]
      rcases List.mem_cons.1 h with h | h
      · rw [← h, add_nan, foldl_nan]
      · exact ih _ h
  have hl : l.length ≠ 0 := by
    intro h0
    rw [List.length_eq_zero_iff] at h0
    rw [h0] at h
    simp at h
  rw [Stat.calcMean, if_neg hl, Stat.dataSum, hs l _ h, nan_div]

/-- **C109** (what does not hold): the mean of finite numbers need not be finite, the sum may overflow.  For each `f64` of
    at least `2^1023` the mean of two copies is infinite. -/
theorem C109_mean_violated {x : ℚ} (h1 : (2 : ℚ) ^ 1023 ≤ x) (hx : Ie.round 53 1024 x = fin x) :
    Stat.calcMean [(fin x : IeF64), fin x] = some (inf false) := by
  have h0 : (0 : IeF64) + fin x = fin x := by rw [zero_eq, add_fin, zero_add, hx]
  have h2 : (fin x + fin x : IeF64) = inf false := by
    have hx0 : (0 : ℚ) < x := lt_of_lt_of_le (by positivity) h1
    have hp : 0 < x + x := add_pos hx0 hx0
    rw [add_fin, round_inf (by norm_num) (by norm_num) (by
      rw [abs_of_pos hp, show (1024 : ℕ) = 1023 + 1 by norm_num, pow_succ, mul_two]; exact add_le_add h1 h1)]
    rw [decide_eq_false hp.not_gt]
  have h3 : (((2 : ℕ) : IeF64)) = fin 2 := by decide +kernel
  simp only [Stat.calcMean, Stat.dataSum, List.foldl_cons, List.foldl_nil, List.length_cons, List.length_nil, h0, h2]
  rw [if_neg (by norm_num)]
  show some (inf false / (((2 : ℕ) : IeF64))) = _
  rw [h3]
  rfl

/-- **C109** (what does not hold): the quotient of two equal complex numbers need not be 1.  If both components of a
    finite `f64` number are at least `2^512` in absolute value, `re² + im²` overflows and both components of the quotient
    are NaN. -/
theorem C109_complex_div_violated {x y : ℚ} (hx : (2 : ℚ) ^ 512 ≤ |x|) (hy : (2 : ℚ) ^ 512 ≤ |y|) :
    Cx.div (⟨fin x, fin y⟩ : Cx IeF64) ⟨fin x, fin y⟩ = some ⟨nan, nan⟩ := by
  have ny : (2 : ℚ) ^ 512 ≤ |-y| := by rwa [abs_neg]
  have e1 := mul_self_inf hx
  have e2 := mul_self_inf hy
  have en : (-fin y : IeF64) = fin (-y) := rfl
  have e3 : (fin y * fin (-y) : IeF64) = inf true := by
    rw [mul_inf (by norm_num) (by norm_num) (sq_large hy ny)]
    have : y * -y < 0 := by
      have : y ≠ 0 := by rintro rfl; rw [abs_zero] at hy; exact absurd hy (not_le.2 (by positivity))
      have := mul_self_pos.2 this
      rw [mul_neg]
      exact neg_lt_zero.2 this
    rw [decide_eq_true this]
  have e4 : (fin y * fin x + fin x * fin (-y) : IeF64) = nan := by
    rw [mul_inf (by norm_num) (by norm_num) (sq_large hy hx), mul_inf (by norm_num) (by norm_num) (sq_large hx ny)]
    have hxy : y * x ≠ 0 := by
      intro h0
      have := sq_large hy hx
      rw [h0, abs_zero] at this
      exact absurd this (not_le.2 (by positivity))
    rcases lt_or_gt_of_ne hxy with h | h
    · have h' : ¬ x * -y < 0 := by rw [mul_neg, mul_comm]; exact (neg_pos.2 h).not_gt
      simp only [h, h', decide_true, decide_false]
      rfl
    · have h' : x * -y < 0 := by rw [mul_neg, mul_comm]; exact neg_lt_zero.2 h
      simp only [h.not_gt, h', decide_true, decide_false]
      rfl
  simp only [Cx.div, Cx.mul, en, e1, e2, e3, e4]
  rfl

/-- **C109** (what does not hold): the division by a nonzero complex number may panic.  If both components of an `f64`
    number are below `2^-538` in absolute value, `re² + im²` underflows to zero, and each division by it panics. -/
theorem C109_complex_div_panic_violated {x y : ℚ} (hx : |x| < (2 : ℚ) ^ (-538 : ℤ)) (hy : |y| < (2 : ℚ) ^ (-538 : ℤ))
    (z : Cx IeF64) : Cx.div z (⟨fin x, fin y⟩ : Cx IeF64) = none := by
  have hz : (0 + 0 : IeF64) = 0 := by decide +kernel
  simp only [Cx.div, mul_self_tiny hx, mul_self_tiny hy, hz]
  rfl

/-- a sum or difference of two products in the bounded format -/
theorem two_products_ie {p e : ℕ} (hp : 1 ≤ p) {x y : ℚ} (hx : x = 0 ∨ (2 : ℚ) ^ (2 - e : ℤ) ≤ |x|)
    (hy : y = 0 ∨ (2 : ℚ) ^ (2 - e : ℤ) ≤ |y|) (hs : (1 + (2 ^ p)⁻¹) ^ 2 * (|x| + |y|) < (2 : ℚ) ^ e) :
    Ie.round p e x = fin (roundBits p x) ∧ Ie.round p e y = fin (roundBits p y) ∧
      Ie.round p e (roundBits p x + roundBits p y) = fin (roundBits p (roundBits p x + roundBits p y)) ∧
      Ie.round p e (roundBits p x - roundBits p y) = fin (roundBits p (roundBits p x - roundBits p y)) := by
  have u0 : (0 : ℚ) ≤ (2 ^ p)⁻¹ := by positivity
  have hr : ∀ z : ℚ, |roundBits p z| ≤ (1 + (2 ^ p)⁻¹) * |z| := by
    intro z
    have h1 : |roundBits p z - z| ≤ (2 ^ p)⁻¹ * |z| := (binary ℚ p hp).err z
    have := abs_sub_abs_le_abs_sub (roundBits p z) z
    linarith
  have hc : ∀ z : ℚ, z = 0 ∨ (2 : ℚ) ^ (2 - e : ℤ) ≤ |z| → (2 : ℚ) ^ (2 - e : ℤ) ≤ |z| ∨ Ie.Sub p e z := by
    rintro z (h | h)
    · right; rw [h]; exact sub_zero'
    · exact Or.inl h
  have x0 := abs_nonneg x
  have y0 := abs_nonneg y
  have u1 : (1 : ℚ) ≤ 1 + (2 ^ p)⁻¹ := by linarith
  have b1 : (1 + (2 ^ p : ℚ)⁻¹) * |x| ≤ (1 + (2 ^ p)⁻¹) ^ 2 * (|x| + |y|) := by
    rw [pow_two]
    have : 0 ≤ (1 + (2 ^ p : ℚ)⁻¹) * |x| := by positivity
    have : 0 ≤ (1 + (2 ^ p : ℚ)⁻¹) * (1 + (2 ^ p : ℚ)⁻¹) * |y| := by positivity
    nlinarith
  have b2 : (1 + (2 ^ p : ℚ)⁻¹) * |y| ≤ (1 + (2 ^ p)⁻¹) ^ 2 * (|x| + |y|) := by
    rw [pow_two]
    have : 0 ≤ (1 + (2 ^ p : ℚ)⁻¹) * |y| := by positivity
    have : 0 ≤ (1 + (2 ^ p : ℚ)⁻¹) * (1 + (2 ^ p : ℚ)⁻¹) * |x| := by positivity
    nlinarith
  have sx := (rounded_eq (hc x hx)).2
  have sy := (rounded_eq (hc y hy)).2
  have sy' : Ie.Sub p e (-roundBits p y) := by
    obtain ⟨n, hn⟩ := sy
    exact ⟨-n, by rw [hn]; push_cast; ring⟩
  have hsum : ∀ z : ℚ, |z| ≤ |roundBits p x| + |roundBits p y| → |roundBits p z| < 2 ^ e := by
    intro z hz
    refine lt_of_le_of_lt ((hr z).trans ?_) hs
    rw [pow_two, mul_assoc]
    refine mul_le_mul_of_nonneg_left ?_ (by positivity)
    have := hr x
    have := hr y
    linarith
  refine ⟨round_fin (hc x hx) (lt_of_le_of_lt ((hr x).trans b1) hs), round_fin (hc y hy) (lt_of_le_of_lt ((hr y).trans b2) hs),
    round_fin (Or.inr (sx.add sy)) (hsum _ (abs_add_le _ _)), ?_⟩
  refine round_fin (Or.inr ?_) (hsum _ (abs_sub _ _))
  rw [sub_eq_add_neg]
  exact sx.add sy'

/-- **C109** the product of complex numbers in `f32` and `f64`: if none of the four products of components underflows and
    the two sums stay below `2^e`, the result is finite and its error is at most `√2 ((1+u)² - 1)` times the absolute value
    of the exact product. -/
theorem C109_complex_mul {p e : ℕ} (hp : 1 ≤ p) {a b c d : ℚ}
    (h1 : a * c = 0 ∨ (2 : ℚ) ^ (2 - e : ℤ) ≤ |a * c|) (h2 : b * d = 0 ∨ (2 : ℚ) ^ (2 - e : ℤ) ≤ |b * d|)
    (h3 : b * c = 0 ∨ (2 : ℚ) ^ (2 - e : ℤ) ≤ |b * c|) (h4 : a * d = 0 ∨ (2 : ℚ) ^ (2 - e : ℤ) ≤ |a * d|)
    (hre : (1 + (2 ^ p)⁻¹) ^ 2 * (|a * c| + |b * d|) < (2 : ℚ) ^ e)
    (him : (1 + (2 ^ p)⁻¹) ^ 2 * (|b * c| + |a * d|) < (2 : ℚ) ^ e) :
    ∃ x y : ℚ, Cx.mul (⟨fin a, fin b⟩ : Cx (Ie p e)) ⟨fin c, fin d⟩ = ⟨fin x, fin y⟩ ∧
      (x - (a * c - b * d)) ^ 2 + (y - (b * c + a * d)) ^ 2 ≤
        2 * ((1 + (2 ^ p)⁻¹) ^ 2 - 1) ^ 2 * ((a ^ 2 + b ^ 2) * (c ^ 2 + d ^ 2)) := by
  obtain ⟨r1, r2, _, r3⟩ := two_products_ie hp h1 h2 hre
  obtain ⟨i1, i2, i3, _⟩ := two_products_ie hp h3 h4 him
  refine ⟨_, _, ?_, C103_mul (R := binary ℚ p hp) ⟨⟨a⟩, ⟨b⟩⟩ ⟨⟨c⟩, ⟨d⟩⟩⟩
  simp only [Cx.mul, mul_fin, r1, r2, i1, i2, add_fin, sub_fin, r3, i3]
  rfl

section QR
variable (sqrt : IeF64 → IeF64)

theorem zero_mul_fin (x : ℚ) : (fin 0 * fin x : IeF64) = fin 0 := by
  rw [mul_fin, zero_mul]; decide +kernel

theorem zero_add_zero : (fin 0 + fin 0 : IeF64) = fin 0 := by decide +kernel

theorem zero_mat_mul (a b c d : ℚ) : (⟨2, 2, [fin 0, fin 0, fin 0, fin 0]⟩ : Mat IeF64).mul
    ⟨2, 2, [fin a, fin c, fin b, fin d]⟩ = some ⟨2, 2, [fin 0, fin 0, fin 0, fin 0]⟩ := by
  simp [Mat.mul, forRange, Mat.get, Mat.set, Mat.zero, List.range'_succ, zero_mul_fin, zero_add_zero, zero_eq]
  rfl

/-- **C109** (what does not hold): `dec_qr` need not return factors of the matrix, the squares may overflow.  For each 2x2
    matrix of finite `f64` numbers whose first column has entries of at least `2^512` in absolute value, the two factors
    `Q` and `R` are zero. -/
theorem C109_qr_overflow_violated (hs : sqrt (inf false) = inf false) {a b c d : ℚ} (ha : (2 : ℚ) ^ 512 ≤ |a|)
    (hc : (2 : ℚ) ^ 512 ≤ |c|) :
    Mat.decQR sqrt (⟨2, 2, [fin a, fin c, fin b, fin d]⟩ : Mat IeF64) = some (⟨2, 2, [0, 0, 0, 0]⟩, ⟨2, 2, [0, 0, 0, 0]⟩) := by
  have a0 : (fin a : IeF64) ≠ 0 := by
    intro h; rw [zero_eq, Ie.fin.injEq] at h; rw [h, abs_zero] at ha; exact absurd ha (not_le.2 (by positivity))
  have c0 : (fin c : IeF64) ≠ 0 := by
    intro h; rw [zero_eq, Ie.fin.injEq] at h; rw [h, abs_zero] at hc; exact absurd hc (not_le.2 (by positivity))
  have p0 : (Ie.inf false : IeF64) ≠ 0 := by decide
  have g1 : (⟨2, 2, [fin a, fin c, fin b, fin d]⟩ : Mat IeF64).get 0 0 = some (fin a) := by simp [Mat.get]
  have g2 : (⟨2, 2, [fin a, fin c, fin b, fin d]⟩ : Mat IeF64).get 1 0 = some (fin c) := by simp [Mat.get]
  have hii : (Ie.inf false + Ie.inf false : IeF64) = Ie.inf false := rfl
  have d1 : (fin a / Ie.inf false : IeF64) = fin 0 := rfl
  have d2 : (-fin c / Ie.inf false : IeF64) = fin 0 := rfl
  have hg : (Mat.givens 2 1 0 (fin 0) (fin 0) : Option (Mat IeF64)) = some ⟨2, 2, [fin 0, fin 0, fin 0, fin 0]⟩ := by
    decide +kernel
  have h1 : (Mat.one 2 : Mat IeF64) = ⟨2, 2, [fin 1, fin 0, fin 0, fin 1]⟩ := by decide +kernel
  have ht : (⟨2, 2, [fin 0, fin 0, fin 0, fin 0]⟩ : Mat IeF64).transpose = some ⟨2, 2, [fin 0, fin 0, fin 0, fin 0]⟩ := by
    decide +kernel
  have key : Mat.qrStep sqrt 0 (Mat.one 2, ⟨2, 2, [fin a, fin c, fin b, fin d]⟩) 1 =
      some (⟨2, 2, [fin 0, fin 0, fin 0, fin 0]⟩, ⟨2, 2, [fin 0, fin 0, fin 0, fin 0]⟩) := by
    simp only [Mat.qrStep, g1, g2, Option.bind_eq_bind, Option.bind_some, mul_self_inf ha, mul_self_inf hc, hii, hs]
    rw [if_pos ⟨p0, a0, c0⟩, d1, d2, hg]
    simp only [Option.bind_some, h1, zero_mat_mul]
  simp only [Mat.decQR, forRange, Nat.sub_zero, show List.range' 0 2 = [0, 1] from rfl, Nat.zero_add, le_refl, if_true,
    show (2 : ℕ) - 1 = 1 from rfl, show List.range' 0 1 = [0] from rfl, show 2 - (1 + 1) = 0 from rfl,
    show List.range' 0 0 = [] from rfl, List.foldlM_cons, List.foldlM_nil, key, Option.bind_eq_bind, Option.bind_some,
    Option.pure_def, ht]
  rfl

/-- **C109** (what does not hold): the factor `R` of `dec_qr` need not be upper triangular, the squares may underflow.  For
    each 2x2 matrix of `f64` numbers whose first column has nonzero entries below `2^-538` in absolute value nothing is
    done: `Q` is the identity and `R` the matrix. -/
theorem C109_qr_underflow_violated (hs : sqrt 0 = 0) {a b c d : ℚ} (ha : |a| < (2 : ℚ) ^ (-538 : ℤ))
    (hc : |c| < (2 : ℚ) ^ (-538 : ℤ)) :
    Mat.decQR sqrt (⟨2, 2, [fin a, fin c, fin b, fin d]⟩ : Mat IeF64) =
      some (⟨2, 2, [1, 0, 0, 1]⟩, ⟨2, 2, [fin a, fin c, fin b, fin d]⟩) := by
  have g1 : (⟨2, 2, [fin a, fin c, fin b, fin d]⟩ : Mat IeF64).get 0 0 = some (fin a) := by simp [Mat.get]
  have g2 : (⟨2, 2, [fin a, fin c, fin b, fin d]⟩ : Mat IeF64).get 1 0 = some (fin c) := by simp [Mat.get]
  have hz : (0 + 0 : IeF64) = 0 := zero_add_zero
  have ht : (Mat.one 2 : Mat IeF64).transpose = some ⟨2, 2, [1, 0, 0, 1]⟩ := by decide +kernel
  have key : Mat.qrStep sqrt 0 (Mat.one 2, ⟨2, 2, [fin a, fin c, fin b, fin d]⟩) 1 =
      some (Mat.one 2, ⟨2, 2, [fin a, fin c, fin b, fin d]⟩) := by
    simp only [Mat.qrStep, g1, g2, Option.bind_eq_bind, Option.bind_some, mul_self_tiny ha, mul_self_tiny hc, hz, hs]
    rw [if_neg (fun h => h.1 rfl)]
  simp only [Mat.decQR, forRange, Nat.sub_zero, show List.range' 0 2 = [0, 1] from rfl, Nat.zero_add, le_refl, if_true,
    show (2 : ℕ) - 1 = 1 from rfl, show List.range' 0 1 = [0] from rfl, show 2 - (1 + 1) = 0 from rfl,
    show List.range' 0 0 = [] from rfl, List.foldlM_cons, List.foldlM_nil, key, Option.bind_eq_bind, Option.bind_some,
    Option.pure_def, ht]

end QR

/-- a product in `f64`: `0.1 * 10 + 0.2 * 5` -/
example : (⟨1, 2, [Ie.round 53 1024 (1 / 10), Ie.round 53 1024 (2 / 10)]⟩ : Mat IeF64).mul ⟨2, 1, [fin 10, fin 5]⟩ =
    some ⟨1, 1, [fin 2]⟩ := by decide +kernel

/-- infinity minus infinity, the overflow of a product, and a subnormal number -/
example : (Ie.inf false - Ie.inf false : IeF64) = nan ∧ (fin (2 ^ 1000) * fin (-2 ^ 24) : IeF64) = Ie.inf true ∧
    (fin (2 ^ 1000) * fin (-2 ^ 23) : IeF64) = fin (-2 ^ 1023) ∧
    (fin (1 / 2 ^ 1000) * fin (3 / 2 ^ 74) : IeF64) = fin (3 / 2 ^ 1074) ∧
    (fin (1 / 2 ^ 1000) * fin (3 / 2 ^ 75) : IeF64) = fin (2 / 2 ^ 1074) := by decide +kernel

/-- the largest `f64` number is finite, half a unit more is not -/
example : Ie.round 53 1024 (2 ^ 1024 - 2 ^ 971) = fin (2 ^ 1024 - 2 ^ 971) ∧
    Ie.round 53 1024 (2 ^ 1024 - 2 ^ 970) = Ie.inf false ∧ Ie.round 24 128 (2 ^ 128 - 2 ^ 103) = Ie.inf false ∧
    Ie.round 24 128 (2 ^ 128 - 2 ^ 104) = fin (2 ^ 128 - 2 ^ 104) := by decide +kernel

/-- the bound of `C109_mul` on a product -/
example : ∃ C, ∃ P : Matrix (Fin 1) (Fin 1) ℚ, (⟨1, 1, [fin (1 / 4)]⟩ : Mat IeF64).mul ⟨1, 1, [fin 3]⟩ = some C ∧
    Repr C (fun i j => fin (P i j)) ∧ |P 0 0 - 3 / 4| ≤ (2 ^ 53)⁻¹ * (3 / 4) := by
  obtain ⟨C, P, h1, h2, h3⟩ := C109_mul (p := 53) (e := 1024) (by norm_num) (m := 1) (n := 1) (q := 1)
    (A := ⟨1, 1, [fin (1 / 4)]⟩) (B := ⟨1, 1, [fin 3]⟩) (M := fun _ _ => 1 / 4) (N := fun _ _ => 3)
    ⟨rfl, rfl, rfl, fun i j => by fin_cases i; fin_cases j; rfl⟩ ⟨rfl, rfl, rfl, fun i j => by fin_cases i; fin_cases j; rfl⟩
    (fun i k j => Or.inr (by decide +kernel)) (fun i j => by
      rw [Fin.sum_univ_one]; decide +kernel)
  refine ⟨C, P, h1, h2, ?_⟩
  have := h3 0 0
  rw [Fin.sum_univ_one, Fin.sum_univ_one] at this
  norm_num at this ⊢
  exact this

end Verif
