import Verif.CastModel
import Verif.SpectralModel
import Verif.QRProps
import Verif.ColLemmas
import Verif.NewtonProps

/-!
# C80 reflector, C81 compare_neighbourhood, C82 conversions, C83 signs and orderings
-/

namespace Verif
open Finset

/-! ### C82 -/
namespace Num

theorem two_pow_pred {b : ℕ} (hb : 0 < b) : (2 : ℤ) ^ b = 2 * 2 ^ (b - 1) := by
  rw [← pow_succ', Nat.sub_add_cancel hb]

/-- Casting between integer types: the result is representable, agrees with the value modulo `2^bits`, and these two
determine it. -/
theorem C82_int (t : IntTy) (hb : 0 < t.bits) (n y : ℤ) :
    castInt t n = y ↔ t.lower ≤ y ∧ y ≤ t.upper ∧ (2 : ℤ) ^ t.bits ∣ n - y := by
  have h2 : (0 : ℤ) < 2 ^ t.bits := by positivity
  have hp : (0 : ℤ) < 2 ^ (t.bits - 1) := by positivity
  have e2 := two_pow_pred hb
  have h0 := Int.emod_nonneg n h2.ne'
  have h1 := Int.emod_lt_of_pos n h2
  have hd : (2 : ℤ) ^ t.bits ∣ n - n % 2 ^ t.bits := Int.dvd_self_sub_emod
  have main : t.lower ≤ castInt t n ∧ castInt t n ≤ t.upper ∧ (2 : ℤ) ^ t.bits ∣ n - castInt t n := by
    unfold castInt wrap IntTy.lower IntTy.upper
    obtain ⟨s, b⟩ := t
    cases s
    · simp only [Bool.false_eq_true, false_and, if_false] at *
      exact ⟨h0, by omega, hd⟩
    · simp only [true_and, if_true] at *
      split
      · refine ⟨by omega, by omega, ?_⟩
        have := dvd_add hd (dvd_refl ((2 : ℤ) ^ b))
        rwa [show n - n % 2 ^ b + 2 ^ b = n - (n % 2 ^ b - 2 ^ b) by ring] at this
      · exact ⟨by omega, by omega, hd⟩
  constructor
  · rintro rfl
    exact main
  · rintro ⟨a1, a2, a3⟩
    obtain ⟨b1, b2, b3⟩ := main
    have hdv := dvd_sub a3 b3
    rw [show n - y - (n - castInt t n) = castInt t n - y by ring] at hdv
    have hw : t.upper - t.lower = 2 ^ t.bits - 1 := by
      unfold IntTy.upper IntTy.lower
      cases t.signed
      · simp
      · simp only [if_true]
        omega
    have := Int.eq_zero_of_abs_lt_dvd hdv (abs_lt.2 ⟨by omega, by omega⟩)
    omega

/-- A value is preserved exactly when the target type can represent it. -/
theorem C82_int_exact (t : IntTy) (hb : 0 < t.bits) (n : ℤ) : castInt t n = n ↔ t.lower ≤ n ∧ n ≤ t.upper := by
  rw [C82_int t hb]
  simp

/-- The documentation of `from_i64` says that a value that cannot be represented gives `None`; it is wrapped instead:
`u8::from_i64(300) = 44`, `u8::from_i64(-1) = 255`, `i8::from_i64(200) = -56`. -/
theorem C82_wraps_violated : castInt ⟨false, 8⟩ 300 = 44 ∧ castInt ⟨false, 8⟩ (-1) = 255 ∧ castInt ⟨true, 8⟩ 200 = -56 := by
  decide

/-- A float is cut off towards zero and clamped to the range. -/
theorem C82_float (t : IntTy) (x : ℚ) :
    castFloat t x = max t.lower (min t.upper (if 0 ≤ x then ⌊x⌋ else ⌈x⌉)) ∨ t.upper < t.lower := by
  by_cases h : t.upper < t.lower
  · exact Or.inr h
  left
  unfold castFloat
  set k := if 0 ≤ x then ⌊x⌋ else ⌈x⌉
  simp only
  split_ifs <;> omega

/-- Within the range the integer part loses less than one and never exceeds the magnitude. -/
theorem C82_float_trunc (t : IntTy) (x : ℚ) (h0 : (t.lower : ℚ) ≤ x) (h1 : x ≤ t.upper) :
    |(castFloat t x : ℚ)| ≤ |x| ∧ |x - castFloat t x| < 1 ∧ 0 ≤ (castFloat t x : ℚ) * x := by
  have key : castFloat t x = if 0 ≤ x then ⌊x⌋ else ⌈x⌉ := by
    unfold castFloat
    have a1 : t.lower ≤ if 0 ≤ x then ⌊x⌋ else ⌈x⌉ := by
      split_ifs
      · exact Int.le_floor.2 h0
      · have := Int.le_ceil x
        exact_mod_cast h0.trans this
    have a2 : (if 0 ≤ x then ⌊x⌋ else ⌈x⌉) ≤ t.upper := by
      split_ifs
      · have := Int.floor_le x
        exact_mod_cast this.trans h1
      · exact Int.ceil_le.2 h1
    simp only [if_neg (not_lt.2 a1), if_neg (not_lt.2 a2)]
  rw [key]
  split_ifs with h
  · have a := Int.floor_le x
    have b := Int.lt_floor_add_one x
    have c : (0 : ℚ) ≤ ⌊x⌋ := by exact_mod_cast Int.floor_nonneg.2 h
    rw [abs_of_nonneg c, abs_of_nonneg h, abs_of_nonneg (by linarith)]
    exact ⟨a, by linarith, mul_nonneg c h⟩
  · push Not at h
    have a := Int.le_ceil x
    have b := Int.ceil_lt_add_one x
    have c : (⌈x⌉ : ℚ) ≤ 0 := by exact_mod_cast Int.ceil_le.2 (by exact_mod_cast h.le)
    rw [abs_of_nonpos c, abs_of_neg h, abs_of_nonpos (by linarith)]
    exact ⟨by linarith, by linarith, mul_nonneg_of_nonpos_of_nonpos c h.le⟩

example : castFloat ⟨false, 8⟩ (-7/2) = 0 ∧ castFloat ⟨true, 8⟩ (-7/2) = -3 ∧ castFloat ⟨true, 8⟩ 1000 = 127 := by
  decide +kernel

theorem roundTo_err {d n : ℕ} (hd : 0 < d) : 2 * |((roundTo d n : ℕ) : ℤ) - n| ≤ d := by
  have h1 := Nat.div_add_mod n d
  have h2 := Nat.mod_lt n hd
  have h3 : (n : ℤ) = d * (n / d : ℕ) + (n % d : ℕ) := by exact_mod_cast h1.symm
  unfold roundTo
  simp only
  split_ifs with h
  · rw [show (((n / d * d : ℕ) : ℤ) - n) = -(n % d : ℕ) by push_cast at h3 ⊢; linarith, abs_neg, Nat.abs_cast]
    omega
  · rw [show ((((n / d + 1) * d : ℕ) : ℤ) - n) = (d - n % d : ℕ) by
      rw [Nat.cast_sub h2.le]; push_cast at h3 ⊢; linarith, Nat.abs_cast]
    omega

/-- Integers of at most `p` bits are converted exactly, all others with a relative error of at most `2^-p`. -/
theorem C82_toFloat (p : ℕ) (hp : 0 < p) (n : ℤ) :
    (|n| ≤ 2 ^ p → toFloat p n = n) ∧ 2 ^ p * |toFloat p n - n| ≤ |n| := by
  have hs : n.sign * (n.natAbs : ℤ) = n := Int.sign_mul_natAbs n
  have hdiff : |toFloat p n - n| ≤ |((roundTo (2 ^ (n.natAbs.size - p)) n.natAbs : ℕ) : ℤ) - n.natAbs| := by
    have e : toFloat p n - n = n.sign * (((roundTo (2 ^ (n.natAbs.size - p)) n.natAbs : ℕ) : ℤ) - n.natAbs) := by
      rw [mul_sub, hs]
      rfl
    rw [e, abs_mul]
    refine mul_le_of_le_one_left (abs_nonneg _) ?_
    rcases lt_trichotomy n 0 with h | h | h
    · simp [Int.sign_eq_neg_one_of_neg h]
    · simp [h]
    · simp [Int.sign_eq_one_of_pos h]
  have one : ∀ a : ℕ, roundTo 1 a = a := fun a => by simp [roundTo, Nat.mod_one]
  have small : n.natAbs.size ≤ p → toFloat p n = n := by
    intro h
    have : n.natAbs.size - p = 0 := by omega
    unfold toFloat
    simp only [this, pow_zero, one]
    exact hs
  constructor
  · intro h
    have h' : n.natAbs ≤ 2 ^ p := by
      have : (n.natAbs : ℤ) ≤ 2 ^ p := by rwa [Int.natCast_natAbs]
      exact_mod_cast this
    rcases h'.lt_or_eq with hlt | heq
    · exact small (Nat.size_le.2 hlt)
    · have : roundTo (2 ^ (n.natAbs.size - p)) n.natAbs = n.natAbs := by
        rw [heq, Nat.size_pow, show p + 1 - p = 1 by omega, pow_one]
        have e : 2 ^ p % 2 = 0 := by
          obtain ⟨q, rfl⟩ : ∃ q, p = q + 1 := ⟨p - 1, by omega⟩
          rw [pow_succ]
          omega
        unfold roundTo
        simp only [e]
        rw [if_pos (Or.inl (by norm_num))]
        omega
      unfold toFloat
      simp only [this]
      exact hs
  · by_cases hsz : n.natAbs.size ≤ p
    · rw [small hsz]
      simp
    push Not at hsz
    have herr := roundTo_err (d := 2 ^ (n.natAbs.size - p)) (n := n.natAbs) (by positivity)
    have hlow : 2 ^ (n.natAbs.size - 1) ≤ n.natAbs := Nat.lt_size.1 (by omega)
    have hpow : 2 ^ p * 2 ^ (n.natAbs.size - p) = 2 * 2 ^ (n.natAbs.size - 1) := by
      rw [← pow_add, ← pow_succ']
      congr 1
      omega
    rw [Int.abs_eq_natAbs n]
    have h1 : (2 : ℤ) ^ p * (2 ^ (n.natAbs.size - p)) = 2 * 2 ^ (n.natAbs.size - 1) := by exact_mod_cast hpow
    have h2 : (2 : ℤ) ^ (n.natAbs.size - 1) ≤ n.natAbs := by exact_mod_cast hlow
    have h3 : (0 : ℤ) < 2 ^ p := by positivity
    simp only [Nat.cast_pow, Nat.cast_ofNat] at herr
    have h4 := mul_le_mul_of_nonneg_left (hdiff) h3.le
    have h5 := mul_le_mul_of_nonneg_left (herr) h3.le
    linarith

/-- `2^53 + 1` is not kept by `f64`; ties go to the even neighbour. -/
theorem C82_toFloat_inexact : toFloat 53 (2 ^ 53 + 1) = 2 ^ 53 ∧ toFloat 53 (-(2 ^ 53 + 3)) = -(2 ^ 53 + 4) ∧
    toFloat 24 16777217 = 16777216 := by decide +kernel

/-- A number with an imaginary part is converted to a real one by dropping that part (the comment at the implementation says
that `None` is returned), also when it is cast to a complex number: `cast(1 + 2i) = 1`. -/
theorem C82_complex_violated : (Cx.toReal (⟨1, 2⟩ : Cx ℚ) = 1) ∧ Cx.castCx (⟨1, 2⟩ : Cx ℚ) = ⟨1, 0⟩ := by decide

/-- Conversions from signed integers to complex numbers always panic. -/
theorem C82_complex_signed_violated (n : ℤ) : Cx.ofInt (K := ℚ) n = none := rfl

/-- Reals survive the way to the complex numbers and back; a converted real has the imaginary part zero. -/
theorem C82_complex_real (x : ℝ) (z : Cx ℝ) :
    (Cx.ofReal x).toReal = x ∧ (Cx.ofReal x).re = x ∧ (Cx.ofReal x).im = 0 ∧ (Cx.castCx z = z ↔ z.im = 0) := by
  obtain ⟨a, b⟩ := z
  refine ⟨rfl, rfl, rfl, ?_⟩
  simp [Cx.castCx, Cx.toReal, eq_comm]

/-! ### C83 -/

/-- `sign` and `abs` of the integers: `sign x · |x| = x` whenever `abs` returns, `sign` is `-1, 0, 1` by the order, and `abs`
panics for the least value only. -/
theorem C83_int (t : IntTy) (hs : t.signed = true) (hb : 0 < t.bits) (x : ℤ) (h0 : t.lower ≤ x) (h1 : x ≤ t.upper) :
    isign x = SignType.sign x ∧ (∀ y, iabs t x = some y → y = |x| ∧ isign x * y = x) ∧
      (iabs t x = none ↔ x = t.lower) := by
  have es : isign x = SignType.sign x := by
    unfold isign
    rcases lt_trichotomy x 0 with h | h | h
    · rw [if_neg (by omega), if_neg (by omega), sign_neg h]; rfl
    · subst h; simp
    · rw [if_pos (by omega), sign_pos h]; rfl
  have hp : (0 : ℤ) < 2 ^ (t.bits - 1) := by positivity
  have el : t.lower = -2 ^ (t.bits - 1) := by simp [IntTy.lower, hs]
  have eu : t.upper = 2 ^ (t.bits - 1) - 1 := by simp [IntTy.upper, hs]
  refine ⟨es, fun y hy => ?_, ?_⟩
  · unfold iabs checked at hy
    have : y = |x| := by
      split_ifs at hy with a b
      · cases hy; rw [abs_of_neg a]
      · cases hy; rw [abs_of_nonneg (by omega)]
    refine ⟨this, ?_⟩
    rw [es, this]
    exact sign_mul_abs x
  · unfold iabs checked
    split_ifs <;> simp <;> omega

/-- `operate` is associative and commutative and has the identity where nothing overflows. -/
theorem C83_operate (t : IntTy) (x y z : ℤ) :
    operateAdd t x y = operateAdd t y x ∧ operateMul t x y = operateMul t y x ∧
    (∀ a b c d, operateAdd t x y = some a → operateAdd t a z = some b → operateAdd t y z = some c →
      operateAdd t x c = some d → b = d) ∧
    (∀ a b c d, operateMul t x y = some a → operateMul t a z = some b → operateMul t y z = some c →
      operateMul t x c = some d → b = d) := by
  refine ⟨by rw [operateAdd, operateAdd, add_comm], by rw [operateMul, operateMul, mul_comm], ?_, ?_⟩ <;>
  · intro a b c d
    simp only [operateAdd, operateMul, checked]
    split_ifs <;> simp only [Option.some.injEq, false_imp_iff, imp_true_iff]
    rintro rfl rfl rfl rfl
    ring

/-- In a fixed-width type one side of the associative law can panic and the other not: `(100 + 100) + (-100)` in `i8`. -/
theorem C83_assoc_violated : (operateAdd ⟨true, 8⟩ 100 100).bind (operateAdd ⟨true, 8⟩ · (-100)) = none ∧
    (operateAdd ⟨true, 8⟩ 100 (-100)).bind (operateAdd ⟨true, 8⟩ 100) = some 100 := by decide

/-- `min` and `max` are the minimum and maximum. -/
theorem C83_minmax (a b : ℚ) : rmin a b = min a b ∧ rmax a b = max a b := by
  refine ⟨by rw [rmin, min_def], ?_⟩
  unfold rmax
  split_ifs with h
  · rw [max_eq_left h]
  · rw [max_eq_right (not_le.1 h).le]

/-- `==` of complex numbers is equality; `partial_cmp` compares the real parts. -/
theorem C83_complex (a b : Cx ℝ) : (Cx.beq a b = true ↔ a = b) ∧ (Cx.cmp a b = some .eq ↔ a.re = b.re) := by
  obtain ⟨a, a'⟩ := a
  obtain ⟨b, b'⟩ := b
  constructor
  · simp [Cx.beq]
  · simp [Cx.cmp]

/-- The order and the equality of complex numbers disagree: `1 + 2i` and `1 + 3i` compare as equal without being equal. -/
theorem C83_order_violated : Cx.cmp (⟨1, 2⟩ : Cx ℚ) ⟨1, 3⟩ = some .eq ∧ Cx.beq (⟨1, 2⟩ : Cx ℚ) ⟨1, 3⟩ = false := by decide +kernel

example : iabs ⟨true, 8⟩ (-128) = none ∧ iabs ⟨true, 8⟩ (-127) = some 127 ∧ isign (-5) = -1 := by decide
end Num

/-! ### C81 -/
namespace Mat
variable {K : Type} [Field K] [LinearOrder K]

theorem cmpLoop (a b : Mat K) (eps : K) (m : ℕ) (x y : ℕ → K) (hx : ∀ i < m, a.vget i = some (x i))
    (hy : ∀ i < m, b.vget i = some (y i)) :
    forRange 0 m (fun (r : Bool) i =>
      if r then do
        let x ← a.vget i
        let y ← b.vget i
        some (decide (¬ |x - y| > eps))
      else some false) true = some (decide (∀ i < m, |x i - y i| ≤ eps)) := by
  obtain ⟨r, h1, h2⟩ := forRange_inv (fun k (r : Bool) => (r = true ↔ ∀ i < k, |x i - y i| ≤ eps)) (a := 0) (b := m)
    (s := true) (f := fun (r : Bool) i =>
      if r then do
        let x ← a.vget i
        let y ← b.vget i
        some (decide (¬ |x - y| > eps))
      else some false) (Nat.zero_le _) (by simp) (by
        rintro k r - hk h
        cases r
        · refine ⟨false, rfl, ?_⟩
          have : ¬ ∀ i < k, |x i - y i| ≤ eps := fun h' => by simpa using h.2 h'
          exact iff_of_false (by simp) fun h' => this fun i hi => h' i (by omega)
        · refine ⟨decide (¬ |x k - y k| > eps), by simp [hx k hk, hy k hk], ?_⟩
          have h0 := h.1 rfl
          simp only [gt_iff_lt, not_lt, decide_eq_true_eq]
          constructor
          · intro h' i hi
            rcases Nat.lt_succ_iff_lt_or_eq.1 hi with hi | rfl
            · exact h0 i hi
            · exact h'
          · exact fun h' => h' k (by omega))
  rw [h1]
  congr 1
  rw [Bool.eq_iff_iff, h2, decide_eq_true_eq]

/-- For column vectors of the same length the result says whether all entries are within `eps`. -/
theorem C81_column {n : ℕ} (x y : Fin n → K) (eps : K) :
    compareNeighbourhood (col x) (col y) eps = some (decide (∀ i, |x i - y i| ≤ eps)) := by
  unfold compareNeighbourhood
  rw [if_neg (by simp [(col_is x).hn, (col_is y).hn])]
  refine (cmpLoop (col x) (col y) eps n (extV x) (extV y) (fun i hi => (col_is x).vget_col hi)
    (fun i hi => (col_is y).vget_col hi)).trans ?_
  congr 1
  rw [decide_eq_decide]
  constructor
  · intro h i
    simpa [extV_apply] using h i i.2
  · intro h i hi
    simpa [extV_lt, hi] using h ⟨i, hi⟩

/-- Vectors of different shapes are never neighbours. -/
theorem C81_shape (a b : Mat K) (eps : K) (h : a.m ≠ b.m ∨ a.n ≠ b.n) : compareNeighbourhood a b eps = some false := by
  rw [compareNeighbourhood, if_pos h]

/-- For row vectors only the first entries are compared. -/
theorem C81_row_partial {a b : Mat K} {n : ℕ} {f g : ℕ → ℕ → K} (ha : a.Is 1 n f) (hb : b.Is 1 n g) (hn : 0 < n) (eps : K) :
    compareNeighbourhood a b eps = some (decide (|f 0 0 - g 0 0| ≤ eps)) := by
  unfold compareNeighbourhood
  rw [if_neg (by simp [ha.hm, ha.hn, hb.hm, hb.hn]), ha.hm]
  refine (cmpLoop a b eps 1 (fun i => f 0 i) (fun i => g 0 i) (fun i hi => ha.vget_row (by omega))
    (fun i hi => hb.vget_row (by omega))).trans ?_
  simp

/-- The row vectors `[1, 2]` and `[1, 100]` count as neighbours for every tolerance, however small. -/
theorem C81_row_violated : compareNeighbourhood (⟨1, 2, [1, 2]⟩ : Mat ℚ) ⟨1, 2, [1, 100]⟩ (1/1000) = some true := by
  decide +kernel

example : compareNeighbourhood (⟨2, 1, [1, 2]⟩ : Mat ℚ) ⟨2, 1, [1, 100]⟩ (1/1000) = some false ∧
    compareNeighbourhood (⟨2, 1, [1, 2]⟩ : Mat ℚ) ⟨2, 1, [1, 2 + 1/1000]⟩ (1/1000) = some true := by decide +kernel

/-! ### C80 -/

theorem vset_col' {n : ℕ} (x : Fin n → K) (i : Fin n) (v : K) : (col x).vset i v = some (col (Function.update x i v)) := by
  rw [(col_is x).vset_col i.2]
  congr 1
  refine (((col_is x).put i.2 (by omega : 0 < 1) v).colRepr_of fun k => ?_ : ColRepr _ (Function.update x i v))
  by_cases h : k = i
  · subst h; simp [upd_same]
  · rw [upd_ne _ _ (fun h' => h (Fin.ext h'.1)), extV_apply, Function.update_of_ne h]

/-- The result for a column vector: `w = x + sign(x₀) ‖x‖ e₀` with the first component, and only that, divided by the norm;
not finite for the zero vector only. Missing from C80: the other components are not normalised. -/
theorem C80_value_partial {n : ℕ} (x : Fin (n + 1) → ℝ) (w : Fin (n + 1) → ℝ)
    (hw : w = Function.update x 0 (x 0 + SignType.sign (x 0) * Real.sqrt (∑ i, x i * x i))) :
    (reflector Real.sqrt sgnK (col x) = none ↔ x = 0) ∧
    (x ≠ 0 → reflector Real.sqrt sgnK (col x) = some (col (Function.update w 0 (w 0 / Real.sqrt (∑ i, w i * w i))))) := by
  have hs : ∀ y : ℝ, sgnK y = SignType.sign y := by
    intro y
    unfold sgnK
    rcases lt_trichotomy y 0 with h | h | h
    · rw [if_neg (by linarith), if_neg (by intro h'; linarith [h'.1]), sign_neg h]; simp
    · subst h; simp
    · rw [if_pos h, sign_pos h]; simp
  have hw0 : w = 0 ↔ x = 0 := by
    constructor
    · intro h
      have h0 : x 0 = 0 := by
        have e := congrFun h 0
        rw [hw, Function.update_self, Pi.zero_apply] at e
        have hr := Real.sqrt_nonneg (∑ i, x i * x i)
        rcases lt_trichotomy (x 0) 0 with h' | h' | h'
        · rw [sign_neg h'] at e; simp at e; linarith
        · exact h'
        · rw [sign_pos h'] at e; simp at e; linarith
      funext i
      by_cases hi : i = 0
      · rw [hi, h0]; rfl
      · have e := congrFun h i
        rwa [hw, Function.update_of_ne hi] at e
    · rintro rfl
      rw [hw]
      simp
  have val : reflector Real.sqrt sgnK (col x) = (fdiv (w 0) (Real.sqrt (∑ i, w i * w i))).bind fun q =>
      some (col (Function.update w 0 q)) := by
    unfold reflector
    have v0 := vset_col' x 0 (x 0 + sgnK (x 0) * Real.sqrt (∑ i, x i * x i))
    have g0 := (col_is x).vget_col (Nat.succ_pos n)
    rw [show extV x 0 = x 0 from extV_apply x 0] at g0
    rw [hs, ← hw] at v0
    have g1 := (col_is w).vget_col (Nat.succ_pos n)
    rw [show extV w 0 = w 0 from extV_apply w 0] at g1
    simp only [Fin.val_zero] at v0
    simp only [norm2_col, g0, Option.bind_eq_bind, Option.bind_some, hs, v0, g1]
    congr 1
    funext q
    exact vset_col' w 0 q
  have hz : Real.sqrt (∑ i, w i * w i) = 0 ↔ x = 0 := by
    rw [← hw0, Real.sqrt_eq_zero (sum_nonneg fun i _ => mul_self_nonneg _),
      sum_eq_zero_iff_of_nonneg fun i _ => mul_self_nonneg _]
    simp [funext_iff]
  rw [val]
  unfold fdiv
  by_cases h : x = 0
  · simp [hz.2 h, h]
  · simp [mt hz.1 h, h]

/-- For a vector with one component the result is `1` or `-1`, a unit vector. -/
theorem C80_one (x : ℝ) (hx : x ≠ 0) : reflector Real.sqrt sgnK (col ![x]) = some (col ![(SignType.sign x : ℝ)]) := by
  have h := (C80_value_partial (n := 0) ![x] _ rfl).2 (by intro h; exact hx (by simpa using congrFun h 0))
  rw [h]
  congr 2
  funext i
  fin_cases i
  simp only [Fin.zero_eta, Function.update_self, Matrix.cons_val_zero, Fin.sum_univ_succ, Fin.sum_univ_zero, add_zero,
    Real.sqrt_mul_self_eq_abs]
  rcases lt_or_gt_of_ne hx with h | h
  · rw [sign_neg h, abs_of_neg h]
    simp only [SignType.coe_neg_one]
    rw [abs_of_neg (by linarith)]
    field_simp
  · rw [sign_pos h, abs_of_pos h]
    simp only [SignType.coe_one]
    rw [abs_of_pos (by linarith)]
    field_simp

/-- The reflector of `[-7, 24]` is `[-4/5, 24]`, which is not a unit vector (the second component would have to be `3/5`). The
reflection in `[0, 1]`, the result for `[0, 1]`, maps that vector to its negative and not to a multiple of `[1, 0]`. -/
theorem C80_violated : reflector Rat.sqrt sgnK (⟨2, 1, [-7, 24]⟩ : Mat ℚ) = some ⟨2, 1, [-4/5, 24]⟩ ∧
    reflector Rat.sqrt sgnK (⟨2, 1, [0, 1]⟩ : Mat ℚ) = some ⟨2, 1, [0, 1]⟩ := by decide +kernel

end Mat
end Verif
