import Verif.FloatHess
import Verif.SvdConv

/-!
# C117: the singular value decomposition with rounding

`/repo/src/algebra/linear/matrix/matrix.rs:503-690`, the models `bidiag`, `rot`, `msweep` and `decSv` run on the numbers `Fl R` with
rounded operations and a rounded square root.
-/

set_option linter.unusedSectionVars false

namespace Verif
open Finset

/-! ### Products with nearly orthogonal matrices -/

section
variable {R : Rounding ℝ}
open Rounding

/-- the error of a product with a matrix within `c` of an orthogonal one, relative to the other factor -/
noncomputable def mulEps (R : Rounding ℝ) (n : ℕ) (c : ℝ) : ℝ := c + R.gam n * (√n + c)

theorem mulEps_nonneg (R : Rounding ℝ) (n : ℕ) {c : ℝ} (h : 0 ≤ c) : 0 ≤ mulEps R n c := by
  have := R.gam_nonneg n
  unfold mulEps
  positivity

theorem mulEps_mono (R : Rounding ℝ) {m n : ℕ} (hmn : m ≤ n) {c d : ℝ} (h0 : 0 ≤ c) (h : c ≤ d) : mulEps R m c ≤ mulEps R n d := by
  have h1 := R.gam_mono hmn
  have h2 := R.gam_nonneg m
  have h3 : √(m : ℝ) ≤ √n := Real.sqrt_le_sqrt (by exact_mod_cast hmn)
  have h4 := Real.sqrt_nonneg (m : ℝ)
  unfold mulEps
  exact add_le_add h (mul_le_mul h1 (by linarith) (by linarith) (by linarith))

theorem hhErr_mono (R : Rounding ℝ) {m n : ℕ} (hmn : m ≤ n) : hhErr R m ≤ hhErr R n := by
  have h1 := R.gam_mono (show 4 * m + 31 ≤ 4 * n + 31 by omega)
  have h3 : √(m : ℝ) ≤ √n := Real.sqrt_le_sqrt (by exact_mod_cast hmn)
  have := R.u_nonneg
  unfold hhErr
  exact add_le_add (mul_le_mul_of_nonneg_left h3 this) (mul_le_mul_of_nonneg_left h1 (by linarith))

/-- an error relative to `X` on top of the error of `X` -/
theorem acc_left {m n : ℕ} {G : Matrix (Fin m) (Fin m) ℝ} {X X' Y : Matrix (Fin m) (Fin n) ℝ} {a p z : ℝ} (hG : G.transpose * G = 1)
    (h : fro (X' - G * X) ≤ a * fro X) (h1 : fro (X - Y) ≤ (p - 1) * z) (h2 : fro Y ≤ z) (ha : 0 ≤ a) :
    fro (X' - G * Y) ≤ ((1 + a) * p - 1) * z := by
  have e : X' - G * Y = (X' - G * X) + G * (X - Y) := by rw [Matrix.mul_sub]; abel
  have h3 := fro_add (X' - G * X) (G * (X - Y))
  rw [fro_orth hG] at h3
  have h4 := fro_add (X - Y) Y
  rw [sub_add_cancel] at h4
  rw [e]
  nlinarith

theorem acc_right {m n : ℕ} {G : Matrix (Fin n) (Fin n) ℝ} {X X' Y : Matrix (Fin m) (Fin n) ℝ} {a p z : ℝ} (hG : G * G.transpose = 1)
    (h : fro (X' - X * G) ≤ a * fro X) (h1 : fro (X - Y) ≤ (p - 1) * z) (h2 : fro Y ≤ z) (ha : 0 ≤ a) :
    fro (X' - Y * G) ≤ ((1 + a) * p - 1) * z := by
  have := acc_left (G := G.transpose) (X := X.transpose) (X' := X'.transpose) (Y := Y.transpose) (a := a) (p := p) (z := z)
    (by rw [Matrix.transpose_transpose]; exact hG)
    (by rwa [← Matrix.transpose_mul, ← Matrix.transpose_sub, fro_transpose, fro_transpose])
    (by rwa [← Matrix.transpose_sub, fro_transpose]) (by rwa [fro_transpose]) ha
  rwa [← Matrix.transpose_mul, ← Matrix.transpose_sub, fro_transpose] at this

theorem mul_right_orth {n p : ℕ} {A B : Mat (Fl R)} {P : Matrix (Fin n) (Fin n) (Fl R)} {X : Matrix (Fin p) (Fin n) (Fl R)}
    {H : Matrix (Fin n) (Fin n) ℝ} {c : ℝ} (hA : Repr A X) (hB : Repr B P) (hH : H.transpose * H = 1) (h : fro (vals P - H) ≤ c) :
    ∃ C, ∃ Y : Matrix (Fin p) (Fin n) (Fl R), A.mul B = some C ∧ Repr C Y ∧
      fro (vals Y - vals X * H) ≤ mulEps R n c * fro (vals X) := by
  obtain ⟨C, Y, h1, h2, h3⟩ := mul_fro hA hB
  refine ⟨C, Y, h1, h2, ?_⟩
  have e : vals Y - vals X * H = (vals Y - vals X * vals P) + vals X * (vals P - H) := by
    rw [Matrix.mul_sub]; abel
  rw [e]
  have h4 := fro_refl hH h
  have h5 := fro_mul (vals X) (vals P - H)
  have h6 := mul_le_mul_of_nonneg_left h (fro_nonneg (vals X))
  have h7 := mul_le_mul_of_nonneg_left (mul_le_mul_of_nonneg_left h4 (fro_nonneg (vals X))) (R.gam_nonneg n)
  have h8 := fro_add (vals Y - vals X * vals P) (vals X * (vals P - H))
  rw [mulEps]
  nlinarith

theorem mul_left_orth {n p : ℕ} {A B : Mat (Fl R)} {P : Matrix (Fin n) (Fin n) (Fl R)} {X : Matrix (Fin n) (Fin p) (Fl R)}
    {H : Matrix (Fin n) (Fin n) ℝ} {c : ℝ} (hA : Repr A P) (hB : Repr B X) (hH : H.transpose * H = 1) (h : fro (vals P - H) ≤ c) :
    ∃ C, ∃ Y : Matrix (Fin n) (Fin p) (Fl R), A.mul B = some C ∧ Repr C Y ∧
      fro (vals Y - H * vals X) ≤ mulEps R n c * fro (vals X) := by
  obtain ⟨C, Y, h1, h2, h3⟩ := mul_fro hA hB
  refine ⟨C, Y, h1, h2, ?_⟩
  have e : vals Y - H * vals X = (vals Y - vals P * vals X) + (vals P - H) * vals X := by
    rw [Matrix.sub_mul]; abel
  rw [e]
  have h4 := fro_refl hH h
  have h5 := fro_mul (vals P - H) (vals X)
  have h6 := mul_le_mul_of_nonneg_right h (fro_nonneg (vals X))
  have h7 := mul_le_mul_of_nonneg_left (mul_le_mul_of_nonneg_right h4 (fro_nonneg (vals X))) (R.gam_nonneg n)
  have h8 := fro_add (vals Y - vals P * vals X) ((vals P - H) * vals X)
  rw [mulEps]
  nlinarith

/-! ### Rotations -/

/-- the pair that `rot` computes is a rotation up to seven relative errors -/
theorem rot_fl {sqrt : Fl R → Fl R} (hs : FlSqrt sqrt) (hu : R.u < 1) (f g : Fl R) :
    ∃ c s : ℝ, c * c + s * s = 1 ∧ R.RelN 7 (Mat.rot sqrt f g).1.val c ∧ R.RelN 7 (Mat.rot sqrt f g).2.1.val s := by
  have key : ∀ a b : Fl R, R.Near 5 (sqrt (1 + a / b * (a / b))).val √(1 + a.val / b.val * (a.val / b.val)) ∧
      R.RelN 1 (a / b).val (a.val / b.val) := by
    intro a b
    have t1 : R.RelN 1 (a / b).val (a.val / b.val) := by
      have := ((RelN.refl (R := R) a.val).div (RelN.refl b.val)).rnd hu
      exact this
    have t2 : R.Near 3 (a / b * (a / b)).val (a.val / b.val * (a.val / b.val)) :=
      ((t1.mul t1).rnd hu).near (mul_self_nonneg _)
    have t3 : R.Near 4 (1 + a / b * (a / b)).val (1 + a.val / b.val * (a.val / b.val)) :=
      (((Near.refl (R := R) (zero_le_one (α := ℝ))).mono (Nat.zero_le 3)).add t2).rnd hu
    exact ⟨t3.flsqrt hs hu, t1⟩
  have unit : ∀ t : ℝ, 1 / √(1 + t * t) * (1 / √(1 + t * t)) + t / √(1 + t * t) * (t / √(1 + t * t)) = 1 := by
    intro t
    have h0 : 0 < 1 + t * t := by nlinarith [mul_self_nonneg t]
    have h1 := Real.mul_self_sqrt h0.le
    rw [div_mul_div_comm, div_mul_div_comm, h1, one_mul, ← add_div, div_self h0.ne']
  have out : ∀ a b : Fl R, R.RelN 7 (1 / sqrt (1 + a / b * (a / b))).val (1 / √(1 + a.val / b.val * (a.val / b.val))) ∧
      R.RelN 7 (a / b / sqrt (1 + a / b * (a / b))).val (a.val / b.val / √(1 + a.val / b.val * (a.val / b.val))) := by
    intro a b
    obtain ⟨h1, h2⟩ := key a b
    refine ⟨?_, ?_⟩
    · exact (((RelN.refl (R := R) (1 : ℝ)).div (RelN.of_near h1)).rnd hu).mono (by omega)
    · exact ((h2.div (RelN.of_near h1)).rnd hu).mono (by omega)
  unfold Mat.rot
  split
  · exact ⟨0, 1, by norm_num, RelN.zero _, (RelN.refl (R := R) (1 : ℝ)).mono (Nat.zero_le _)⟩
  · split
    · exact ⟨_, _, unit (g.val / f.val), (out g f).1, (out g f).2⟩
    · exact ⟨_, _, by rw [add_comm]; exact unit (f.val / g.val), (out f g).2, (out f g).1⟩

/-- a sum of products in which at most two do not vanish -/
theorem sparse_err {a b : ℕ → Fl R} {n i j : ℕ} (hi : i < n) (hj : j < n) (h0 : ∀ k < n, k ≠ i → k ≠ j → (a k * b k) = 0 ∧ (a k).val * (b k).val = 0) :
    |(Mat.accum (fun k => a k * b k) n).val - ∑ k ∈ range n, (a k).val * (b k).val| ≤
      R.gam 2 * ∑ k ∈ range n, |(a k).val * (b k).val| := by
  have u0 := R.u_nonneg
  have g2 : R.gam 2 = 2 * R.u + R.u ^ 2 := by unfold gam; ring
  have pair : ∀ i j, j < i → i < n → (∀ k < n, k ≠ i → k ≠ j → (a k * b k) = 0 ∧ (a k).val * (b k).val = 0) →
      |(Mat.accum (fun k => a k * b k) n).val - ∑ k ∈ range n, (a k).val * (b k).val| ≤
      R.gam 2 * ∑ k ∈ range n, |(a k).val * (b k).val| := by
    intro i j hji hi h0
    rw [accum_two hji hi (fun k hk h1 h2 => (h0 k hk h1 h2).1) (R.idem _)]
    have hsum : ∀ F : ℕ → ℝ, (∀ k < n, k ≠ i → k ≠ j → F k = 0) → ∑ k ∈ range n, F k = F j + F i := by
      intro F hF
      rw [← sum_subset (s₁ := {j, i}) (fun x hx => by simp at hx; rw [mem_range]; omega) (fun x hx h => by
        simp at h; rw [mem_range] at hx; exact hF x hx h.2 h.1), sum_pair (by omega)]
    rw [hsum _ fun k hk h1 h2 => (h0 k hk h1 h2).2, hsum _ fun k hk h1 h2 => by rw [(h0 k hk h1 h2).2, abs_zero]]
    rw [Fl.add_val, Fl.mul_val, Fl.mul_val, g2]
    set p := (a j).val * (b j).val
    set q := (a i).val * (b i).val
    have e1 := R.err p
    have e2 := R.err q
    have e3 := R.err (R.rnd p + R.rnd q)
    have e4 : |R.rnd p + R.rnd q - (p + q)| ≤ R.u * (|p| + |q|) := by
      have := abs_add_le (R.rnd p - p) (R.rnd q - q)
      rw [show R.rnd p + R.rnd q - (p + q) = R.rnd p - p + (R.rnd q - q) by ring]
      linarith
    have e5 : |R.rnd p + R.rnd q| ≤ (1 + R.u) * (|p| + |q|) := by
      have h1 := abs_add_le (R.rnd p + R.rnd q - (p + q)) (p + q)
      rw [sub_add_cancel] at h1
      have h2 := abs_add_le p q
      linarith
    have e6 := abs_add_le (R.rnd (R.rnd p + R.rnd q) - (R.rnd p + R.rnd q)) (R.rnd p + R.rnd q - (p + q))
    rw [sub_add_sub_cancel] at e6
    have e7 := mul_le_mul_of_nonneg_left e5 u0
    nlinarith
  rcases lt_trichotomy i j with h | h | h
  · exact pair j i h hj fun k hk h1 h2 => h0 k hk h2 h1
  · subst h
    rw [accum_one hi (fun k hk h1 => (h0 k hk h1 h1).1) (R.idem _)]
    have hsum : ∀ F : ℕ → ℝ, (∀ k < n, k ≠ i → F k = 0) → ∑ k ∈ range n, F k = F i := by
      intro F hF
      exact sum_eq_single i (fun k hk h1 => hF k (mem_range.1 hk) h1) (fun h => absurd (mem_range.2 hi) h)
    rw [hsum _ fun k hk h1 => (h0 k hk h1 h1).2, hsum _ fun k hk h1 => by rw [(h0 k hk h1 h1).2, abs_zero]]
    have e := R.err ((a i).val * (b i).val)
    rw [Fl.mul_val, g2]
    have := abs_nonneg ((a i).val * (b i).val)
    nlinarith [mul_nonneg u0 this, mul_nonneg (sq_nonneg R.u) this]
  · exact pair i j h hi h0

/-- `Q` is the matrix `G`, whose rows and columns have entries only on the diagonal and where `σ` maps, up to relative errors -/
structure RotNear {n : ℕ} (σ : Equiv.Perm (Fin n)) (Q : Matrix (Fin n) (Fin n) (Fl R)) (G : Matrix (Fin n) (Fin n) ℝ) : Prop where
  near : ∀ r l, |(Q r l).val - G r l| ≤ R.gam 7 * |G r l|
  le : ∀ r l, |G r l| ≤ 1
  off : ∀ r l, l ≠ r → l ≠ σ r → G r l = 0

theorem RotNear.zero {n : ℕ} {σ : Equiv.Perm (Fin n)} {Q : Matrix (Fin n) (Fin n) (Fl R)} {G : Matrix (Fin n) (Fin n) ℝ}
    (h : RotNear σ Q G) {r l : Fin n} (h1 : l ≠ r) (h2 : l ≠ σ r) : Q r l = 0 := by
  have := h.near r l
  rw [h.off r l h1 h2] at this
  simp only [sub_zero, abs_zero, mul_zero] at this
  exact Fl.ext (abs_eq_zero.1 (le_antisymm this (abs_nonneg _)))

theorem Fl.mul_zero'' (x : Fl R) : x * (0 : Fl R) = 0 :=
  Fl.ext (by rw [Fl.mul_val, Fl.zero_val, mul_zero, R.rnd_zero])

/-- the error of a product with a rotation -/
noncomputable def rotEps (R : Rounding ℝ) : ℝ := 2 * R.gam 9

theorem rotEps_nonneg (R : Rounding ℝ) : 0 ≤ rotEps R := mul_nonneg (by norm_num) (R.gam_nonneg _)

theorem sum_two {n : ℕ} {i j : Fin n} (F : Fin n → ℝ) (h0 : ∀ k, k ≠ i → k ≠ j → F k = 0) (hF : ∀ k, 0 ≤ F k) :
    ∑ k, F k ≤ F i + F j := by
  by_cases h : i = j
  · subst h
    rw [sum_eq_single i (fun k _ h1 => h0 k h1 h1) (by simp)]
    have := hF i
    linarith
  · rw [← sum_subset (s₁ := {i, j}) (fun x _ => mem_univ x) (fun x _ hx => by
      simp at hx; exact h0 x hx.1 hx.2), sum_pair h]

/-- one entry of the product with a nearly exact rotation -/
theorem rot_entry {n : ℕ} {σ : Equiv.Perm (Fin n)} {Q : Matrix (Fin n) (Fin n) (Fl R)} {G : Matrix (Fin n) (Fin n) ℝ}
    (h : RotNear σ Q G) (r : Fin n) (x : Fin n → Fl R) {y : ℝ}
    (hy : |y - ∑ l, (Q r l).val * (x l).val| ≤ R.gam 2 * ∑ l, |(Q r l).val * (x l).val|) :
    |y - ∑ l, G r l * (x l).val| ≤ R.gam 9 * (|(x r).val| + |(x (σ r)).val|) := by
  have g2 := R.gam_nonneg 2
  have g7 := R.gam_nonneg 7
  have g9 : R.gam 9 = R.gam 7 + R.gam 2 * (1 + R.gam 7) := by unfold gam; ring
  have hQ : ∀ l, |(Q r l).val| ≤ (1 + R.gam 7) * |G r l| := by
    intro l
    have h1 := h.near r l
    have h2 := abs_add_le ((Q r l).val - G r l) (G r l)
    rw [sub_add_cancel] at h2
    linarith
  have s1 : ∑ l, |G r l| * |(x l).val| ≤ |(x r).val| + |(x (σ r)).val| := by
    refine (sum_two (i := r) (j := σ r) (fun l => |G r l| * |(x l).val|) (fun k h1 h2 => by rw [h.off r k h1 h2, abs_zero, zero_mul])
      (fun k => by positivity)).trans ?_
    have h1 := mul_le_mul_of_nonneg_right (h.le r r) (abs_nonneg (x r).val)
    have h2 := mul_le_mul_of_nonneg_right (h.le r (σ r)) (abs_nonneg (x (σ r)).val)
    rw [one_mul] at h1 h2
    exact add_le_add h1 h2
  have s2 : ∑ l, |(Q r l).val * (x l).val| ≤ (1 + R.gam 7) * (|(x r).val| + |(x (σ r)).val|) := by
    calc ∑ l, |(Q r l).val * (x l).val| ≤ ∑ l, (1 + R.gam 7) * (|G r l| * |(x l).val|) := by
          refine sum_le_sum fun l _ => ?_
          rw [abs_mul, ← mul_assoc]
          exact mul_le_mul_of_nonneg_right (hQ l) (abs_nonneg _)
      _ ≤ _ := by rw [← mul_sum]; exact mul_le_mul_of_nonneg_left s1 (by linarith)
  have s3 : |∑ l, (Q r l).val * (x l).val - ∑ l, G r l * (x l).val| ≤ R.gam 7 * (|(x r).val| + |(x (σ r)).val|) := by
    rw [← sum_sub_distrib]
    refine (abs_sum_le_sum_abs _ _).trans ?_
    calc ∑ l, |(Q r l).val * (x l).val - G r l * (x l).val| ≤ ∑ l, R.gam 7 * (|G r l| * |(x l).val|) := by
          refine sum_le_sum fun l _ => ?_
          rw [← sub_mul, abs_mul, ← mul_assoc]
          exact mul_le_mul_of_nonneg_right (h.near r l) (abs_nonneg _)
      _ ≤ _ := by rw [← mul_sum]; exact mul_le_mul_of_nonneg_left s1 g7
  have s4 := abs_add_le (y - ∑ l, (Q r l).val * (x l).val) (∑ l, (Q r l).val * (x l).val - ∑ l, G r l * (x l).val)
  rw [sub_add_sub_cancel] at s4
  have s5 := mul_le_mul_of_nonneg_left s2 g2
  rw [g9]
  nlinarith

theorem fro_perm {m n : ℕ} (σ : Equiv.Perm (Fin m)) (X : Matrix (Fin m) (Fin n) ℝ) : fro (Matrix.of fun r c => X (σ r) c) = fro X := by
  rw [fro, fro]
  congr 1
  exact Equiv.sum_comp σ fun r => ∑ c, X r c ^ 2

theorem fro_two {m n : ℕ} (σ : Equiv.Perm (Fin m)) {X Y : Matrix (Fin m) (Fin n) ℝ} {γ : ℝ} (hγ : 0 ≤ γ)
    (h : ∀ r c, |Y r c| ≤ γ * (|X r c| + |X (σ r) c|)) : fro Y ≤ 2 * γ * fro X := by
  have h1 : ∀ r c, |Y r c| ≤ (γ • ((Matrix.of fun r c => |X r c|) + Matrix.of fun r c => |(Matrix.of fun r c => X (σ r) c) r c|)) r c := by
    intro r c
    simpa using h r c
  refine (fro_le_abs h1).trans ?_
  rw [fro_smul, abs_of_nonneg hγ]
  have := fro_add (Matrix.of fun r c => |X r c|) (Matrix.of fun r c => |(Matrix.of fun r c => X (σ r) c) r c|)
  rw [fro_abs, fro_abs, fro_perm] at this
  have := mul_le_mul_of_nonneg_left this hγ
  linarith

/-- a rotation applied from the left -/
theorem rot_mul_left {n p : ℕ} {σ : Equiv.Perm (Fin n)} {A B : Mat (Fl R)} {Q : Matrix (Fin n) (Fin n) (Fl R)}
    {X : Matrix (Fin n) (Fin p) (Fl R)} {G : Matrix (Fin n) (Fin n) ℝ} (hA : Repr A Q) (hB : Repr B X) (h : RotNear σ Q G) :
    ∃ C, ∃ Y : Matrix (Fin n) (Fin p) (Fl R), A.mul B = some C ∧ Repr C Y ∧ fro (vals Y - G * vals X) ≤ rotEps R * fro (vals X) := by
  obtain ⟨C, h1, h2⟩ := Mat.mul_accum hA.is hB.is
  refine ⟨C, _, h1, h2.repr, ?_⟩
  unfold rotEps
  refine fro_two σ (R.gam_nonneg 9) fun r c => ?_
  have e := sparse_err (R := R) (a := fun k => extM Q r k) (b := fun k => extM X k c) (i := r) (j := σ r) r.2 (σ r).2 (by
    intro k hk h1 h2
    have : Q r ⟨k, hk⟩ = 0 := h.zero (fun h => h1 (congrArg Fin.val h)) (fun h => h2 (congrArg Fin.val h))
    simp only [extM_lt Q r.2 hk]
    rw [this]
    exact ⟨Fl.zero_mul' _, by rw [Fl.zero_val, zero_mul]⟩)
  rw [← Fin.sum_univ_eq_sum_range (fun k => (extM Q r k).val * (extM X k c).val),
    ← Fin.sum_univ_eq_sum_range (fun k => |(extM Q r k).val * (extM X k c).val|)] at e
  simp only [extM_apply] at e
  exact rot_entry h r (fun l => X l c) e

/-- the transpose of a rotation applied from the right -/
theorem rot_mul_right {n p : ℕ} {σ : Equiv.Perm (Fin n)} {A B : Mat (Fl R)} {Q : Matrix (Fin n) (Fin n) (Fl R)}
    {X : Matrix (Fin p) (Fin n) (Fl R)} {G : Matrix (Fin n) (Fin n) ℝ} (hA : Repr A X) (hB : Repr B Q.transpose) (h : RotNear σ Q G) :
    ∃ C, ∃ Y : Matrix (Fin p) (Fin n) (Fl R), A.mul B = some C ∧ Repr C Y ∧
      fro (vals Y - vals X * G.transpose) ≤ rotEps R * fro (vals X) := by
  obtain ⟨C, h1, h2⟩ := Mat.mul_accum hA.is hB.is
  refine ⟨C, _, h1, h2.repr, ?_⟩
  unfold rotEps
  rw [← fro_transpose, ← fro_transpose (vals X)]
  refine fro_two σ (R.gam_nonneg 9) fun r c => ?_
  have e := sparse_err (R := R) (a := fun k => extM X c k) (b := fun k => extM Q.transpose k r) (i := r) (j := σ r) r.2 (σ r).2 (by
    intro k hk h1 h2
    have : Q r ⟨k, hk⟩ = 0 := h.zero (fun h => h1 (congrArg Fin.val h)) (fun h => h2 (congrArg Fin.val h))
    simp only [extM_lt Q.transpose hk r.2, Matrix.transpose_apply]
    rw [this]
    exact ⟨Fl.mul_zero'' _, by rw [Fl.zero_val, mul_zero]⟩)
  rw [← Fin.sum_univ_eq_sum_range (fun k => (extM X c k).val * (extM Q.transpose k r).val),
    ← Fin.sum_univ_eq_sum_range (fun k => |(extM X c k).val * (extM Q.transpose k r).val|)] at e
  simp only [extM_apply, Matrix.transpose_apply] at e
  simp only [mul_comm (X c _).val] at e
  have := rot_entry h r (fun l => X c l) e
  simp only [Matrix.transpose_apply, Matrix.sub_apply, Matrix.mul_apply, vals, Matrix.of_apply, mx]
  simp only [mul_comm (X c _).val]
  exact this

/-- the entries of a rotation in the rows and columns `k`, `k + 1` -/
noncomputable def rotF (k : ℕ) (c s : Fl R) (a b : ℕ) : Fl R :=
  if a = k then (if b = k then c else if b = k + 1 then s else 0)
  else if a = k + 1 then (if b = k then -s else if b = k + 1 then c else 0) else if a = b then 1 else 0

theorem putRot_fl {n k : Nat} (hk : k + 1 < n) {q : Mat (Fl R)} {f : Nat → Nat → Fl R} (hq : q.Is n n f)
    (hf : ∀ a b, a < n → b < n → ¬ ((a = k ∨ a = k + 1) ∧ (b = k ∨ b = k + 1)) → f a b = if a = b then 1 else 0) (c s : Fl R) :
    ∃ g, Mat.putRot q k c s = some g ∧ g.Is n n (rotF k c s) := by
  have hk0 : k < n := by omega
  have h1 := hq.put hk0 hk0 c
  have h2 := h1.put hk0 hk s
  have h3 := h2.put hk hk0 (-s)
  have h4 := h3.put hk hk c
  refine ⟨_, ?_, h4.congr fun a b ha hb => ?_⟩
  · simp only [Mat.putRot, hq.set hk0 hk0, h1.set hk0 hk, h2.set hk hk0, h3.set hk hk, Option.bind_eq_bind, Option.bind_some]
  · have hf' := hf a b ha hb
    simp only [upd, rotF]
    by_cases e1 : a = k <;> by_cases e2 : a = k + 1 <;> by_cases e3 : b = k <;>
      by_cases e4 : b = k + 1 <;> first | omega | skip
    all_goals simp only [e1, e2, e3, e4] at hf' ⊢
    all_goals simp at hf' ⊢
    all_goals first
      | (rw [hf', if_neg (by omega)]; done)
      | (rw [hf']; done)

theorem rotF_near {n k : ℕ} (hk : k + 1 < n) {c s : Fl R} {c₀ s₀ : ℝ} (h : c₀ * c₀ + s₀ * s₀ = 1) (hc : R.RelN 7 c.val c₀)
    (hs : R.RelN 7 s.val s₀) :
    RotNear (Equiv.swap ⟨k, by omega⟩ ⟨k + 1, hk⟩) (mx n n (rotF k c s)) (givensM (⟨k, by omega⟩ : Fin n) ⟨k + 1, hk⟩ c₀ s₀) := by
  have c1 : |c₀| ≤ 1 := by rw [abs_le_one_iff_mul_self_le_one]; nlinarith [mul_self_nonneg s₀]
  have s1 : |s₀| ≤ 1 := by rw [abs_le_one_iff_mul_self_le_one]; nlinarith [mul_self_nonneg c₀]
  have g7 := R.gam_nonneg 7
  refine ⟨fun r l => ?_, fun r l => ?_, fun r l h1 h2 => ?_⟩
  · simp only [mx, rotF, givensM, Matrix.of_apply, Fin.ext_iff]
    split
    · split
      · rw [if_neg (by omega), add_zero]; exact hc.abs_sub_le
      · split
        · rw [zero_add]; exact hs.abs_sub_le
        · simp [Fl.zero_val]
    · split
      · split
        · rw [if_neg (by omega), add_zero]; exact hs.neg.abs_sub_le
        · split
          · rw [zero_add]; exact hc.abs_sub_le
          · simp [Fl.zero_val]
      · simp only [eq_comm (a := (l : ℕ))]
        split
        · rw [Fl.one_val, sub_self, abs_zero, abs_one, mul_one]; exact g7
        · simp [Fl.zero_val]
  · simp only [givensM, Matrix.of_apply, Fin.ext_iff]
    by_cases e1 : (r : ℕ) = k <;> by_cases e2 : (r : ℕ) = k + 1 <;> by_cases e3 : (l : ℕ) = k <;>
      by_cases e4 : (l : ℕ) = k + 1 <;> first | omega | skip
    all_goals simp [e1, e2, e3, e4, c1, s1]
    all_goals (split <;> simp)
  · have h3 : ∀ x : Fin n, (l ≠ x) ↔ ((l : ℕ) ≠ x) := fun x => by rw [Ne, Fin.ext_iff]
    simp only [givensM, Matrix.of_apply]
    by_cases e1 : r = ⟨k, by omega⟩
    · rw [e1, Equiv.swap_apply_left] at h2
      rw [if_pos e1, if_neg (e1 ▸ h1), if_neg h2, add_zero]
    · by_cases e2 : r = ⟨k + 1, hk⟩
      · rw [e2, Equiv.swap_apply_right] at h2
        rw [if_neg e1, if_pos e2, if_neg h2, if_neg (e2 ▸ h1), add_zero]
      · rw [if_neg e1, if_neg e2, if_neg h1]

/-! ### Reflectors of a block -/

theorem getSlice_fl {A : Mat (Fl R)} {m n r1 r2 c1 c2 : Nat} {f} (hA : A.Is m n f)
    (hr : r1 ≤ r2) (hc : c1 ≤ c2) (hr2 : r2 < m) (hc2 : c2 < n) :
    ∃ B, A.getSlice r1 r2 c1 c2 = some B ∧ B.Is (r2 - r1 + 1) (c2 - c1 + 1) (fun i j => f (r1 + i) (c1 + j)) := by
  obtain ⟨C, h1, h2⟩ := Mat.fillLoop (m := r2 - r1 + 1) (n := c2 - c1 + 1) (fun i j => f (r1 + i) (c1 + j))
    (Mat.zero_is (K := Fl R) _ _)
    (fun S i j => do
        let x ← A.get (r1 + i) (c1 + j)
        S.set i j x) (by
      intro B i j h1 h2 _
      simp [hA.get (i := r1 + i) (j := c1 + j) (by omega) (by omega)])
  refine ⟨C, ?_, h2⟩
  unfold Mat.getSlice
  rw [if_pos ⟨by rw [hA.hm]; omega, by rw [hA.hm]; omega, by rw [hA.hn]; omega,
    by rw [hA.hn]; omega, hr, hc⟩]
  rw [show r2 + 1 = r1 + (r2 - r1 + 1) by omega, Mat.forRange_shift]
  have e : ∀ k, r1 + k - r1 = k := by omega
  have e2 : ∀ k, c1 + k - c1 = k := by omega
  simp only [show c2 + 1 = c1 + (c2 - c1 + 1) by omega, Mat.forRange_shift, e, e2]
  exact h1

/-- a matrix with nothing outside of a block -/
theorem fro_block {d e i j m n : ℕ} (hm : m = i + d) (hn : n = j + e) {E : Matrix (Fin m) (Fin n) ℝ} {F : Matrix (Fin d) (Fin e) ℝ}
    (h0 : ∀ (r : Fin m) (c : Fin n), (r : ℕ) < i ∨ (c : ℕ) < j → E r c = 0)
    (h1 : ∀ (r : Fin d) (c : Fin e), |E ⟨i + r, by omega⟩ ⟨j + c, by omega⟩| ≤ |F r c|) : fro E ≤ fro F := by
  subst hm hn
  refine Real.sqrt_le_sqrt ?_
  rw [Fin.sum_univ_add, sum_eq_zero, zero_add]
  · refine sum_le_sum fun r _ => ?_
    rw [Fin.sum_univ_add, sum_eq_zero, zero_add]
    · exact sum_le_sum fun c _ => sq_le_sq.2 (h1 r c)
    · intro c _
      rw [h0 _ _ (Or.inr (by simp)), zero_pow two_ne_zero]
  · intro r _
    refine sum_eq_zero fun c _ => ?_
    rw [h0 _ _ (Or.inl (by simp)), zero_pow two_ne_zero]

theorem fro_of_block {d e i j m n : ℕ} (hm : m = i + d) (hn : n = j + e) (E : Matrix (Fin m) (Fin n) ℝ) :
    fro (Matrix.of fun (r : Fin d) (c : Fin e) => E ⟨i + r, by omega⟩ ⟨j + c, by omega⟩) ≤ fro E := by
  subst hm hn
  refine Real.sqrt_le_sqrt ?_
  rw [Fin.sum_univ_add (a := i)]
  refine le_trans ?_ (le_add_of_nonneg_left (sum_nonneg fun r _ => sum_nonneg fun c _ => sq_nonneg _))
  refine sum_le_sum fun r _ => ?_
  rw [Fin.sum_univ_add (a := j)]
  exact le_add_of_nonneg_left (sum_nonneg fun c _ => sq_nonneg _)

/-- a nearly exact reflector written into the identity -/
theorem embed_fl {d i m : Nat} (hm : m = i + d) {H : Mat (Fl R)} {P : Matrix (Fin d) (Fin d) (Fl R)} {w : Fin d → ℝ} {c : ℝ}
    (hH : Repr H P) (h : fro (vals P - hhM w) ≤ c) :
    ∃ E, ∃ N : Matrix (Fin m) (Fin m) (Fl R), (Mat.one m : Mat (Fl R)).setSlice H i i = some E ∧ Repr E N ∧
      fro (vals N - hhM (shiftW i m w)) ≤ c ∧ ∀ a b : Fin m, (a : ℕ) < i ∨ (b : ℕ) < i → (N a b).val = if a = b then 1 else 0 := by
  obtain ⟨E, e1, e2⟩ := Mat.setSlice_is (r := i) (c := i) (Mat.one_is (K := Fl R) m) hH.is (by omega) (by omega)
  refine ⟨E, _, e1, e2.repr, (fro_block hm hm ?_ ?_).trans h, ?_⟩
  · intro a b hab
    simp only [Matrix.sub_apply, vals, mx, hhM, Matrix.of_apply, Fin.ext_iff]
    rw [if_neg (by omega)]
    rcases hab with h | h
    · rw [shiftW_lt w h, zero_mul, mul_zero, sub_zero]
      split <;> simp [Fl.one_val, Fl.zero_val]
    · rw [shiftW_lt w h, mul_zero, mul_zero, sub_zero]
      split <;> simp [Fl.one_val, Fl.zero_val]
  · intro a b
    refine le_of_eq ?_
    simp only [Matrix.sub_apply, vals, mx, hhM, Matrix.of_apply, Fin.ext_iff]
    rw [if_pos (by omega), shiftW_add, shiftW_add, Nat.add_sub_cancel_left, Nat.add_sub_cancel_left, extM_apply]
    simp
  · intro a b hab
    simp only [mx, Matrix.of_apply, Fin.ext_iff]
    rw [if_neg (by omega)]
    split <;> rfl

/-- the first `i` columns without what is below the diagonal, the first `j` rows without what is right of the superdiagonal -/
def bMask {m n : ℕ} (i j : ℕ) (X : Matrix (Fin m) (Fin n) ℝ) : Matrix (Fin m) (Fin n) ℝ :=
  Matrix.of fun r c => if ((c : ℕ) < i ∧ (c : ℕ) < r) ∨ ((r : ℕ) < j ∧ (r : ℕ) + 1 < c) then 0 else X r c

/-- The left half of a step. The part of the columns that should be zero is not touched. -/
theorem bidiag_left {n i d : ℕ} (hd : n = i + d) (hd0 : 0 < d) {a H : Mat (Fl R)} {T : Matrix (Fin n) (Fin n) (Fl R)}
    {P : Matrix (Fin d) (Fin d) (Fl R)} {w : Fin d → ℝ} {c : ℝ} (ha : Repr a T) (hH : Repr H P) (hw : ∑ l, w l * w l = 1)
    (h : fro (vals P - hhM w) ≤ c)
    (hz : ∀ l : Fin d, 0 < (l : ℕ) → (T ⟨i + l, by omega⟩ ⟨i, by omega⟩).val -
      2 * (w l * ∑ k : Fin d, w k * (T ⟨i + k, by omega⟩ ⟨i, by omega⟩).val) = 0) :
    ∃ s t b, ∃ T1 : Matrix (Fin n) (Fin n) (Fl R), a.getSlice i (n - 1) i (n - 1) = some s ∧ H.mul s = some t ∧
      a.setSlice t i i = some b ∧ Repr b T1 ∧
      fro (bMask (i + 1) i (vals T1) - hhM (shiftW i n w) * bMask i i (vals T)) ≤ mulEps R d c * fro (bMask i i (vals T)) := by
  obtain ⟨s, e1, e2⟩ := getSlice_fl (r1 := i) (r2 := n - 1) (c1 := i) (c2 := n - 1) ha.is (by omega) (by omega)
    (by omega) (by omega)
  rw [show n - 1 - i + 1 = d by omega] at e2
  have hS : Repr s (Matrix.of fun r c : Fin d => T ⟨i + r, by omega⟩ ⟨i + c, by omega⟩) := e2.repr_of fun r c => by
    rw [extM_lt T (by omega) (by omega)]; rfl
  have hG : (hhM w).transpose * hhM w = 1 := by rw [hhM_transpose]; exact hhM_orth hw
  obtain ⟨t, Y, e3, e4, e5⟩ := mul_left_orth hH hS hG h
  obtain ⟨b, e6, e7⟩ := Mat.setSlice_is (r := i) (c := i) ha.is e4.is (by omega) (by omega)
  refine ⟨s, t, b, _, e1, e3, e6, e7.repr, ?_⟩
  set S : Matrix (Fin d) (Fin d) (Fl R) := Matrix.of fun r c : Fin d => T ⟨i + r, by omega⟩ ⟨i + c, by omega⟩ with hSdef
  set C := bMask i i (vals T) with hC
  have hCS : ∀ r c : Fin d, C ⟨i + r, by omega⟩ ⟨i + c, by omega⟩ = (S r c).val := by
    intro r c
    simp only [hC, bMask, Matrix.of_apply]
    rw [if_neg (by omega)]
    rfl
  have hsub : fro (vals S) ≤ fro C := by
    refine le_trans (le_of_eq ?_) (fro_of_block hd hd C)
    congr 1
    ext r c
    simp only [vals, Matrix.of_apply, hCS]
  have hc0 : 0 ≤ mulEps R d c := mulEps_nonneg R d ((fro_nonneg _).trans h)
  refine le_trans (fro_block (F := vals Y - hhM w * vals S) hd hd ?_ ?_) (e5.trans (mul_le_mul_of_nonneg_left hsub hc0))
  · intro r c hrc
    have hH0 : (hhM (shiftW i n w) * C) r c = C r c := by
      rw [hhM_mul]
      by_cases hr : (r : ℕ) < i
      · rw [shiftW_lt w hr, zero_mul, mul_zero, sub_zero]
      · rw [shiftW_sum hd, sum_eq_zero, mul_zero, mul_zero, sub_zero]
        intro l _
        simp only [hC, bMask, Matrix.of_apply]
        rw [if_pos (Or.inl ⟨by omega, by omega⟩), mul_zero]
    rw [Matrix.sub_apply, hH0]
    simp only [hC, bMask, Matrix.of_apply, vals, mx]
    by_cases hr : (r : ℕ) < i
    · have : ((c : ℕ) < i + 1 ∧ (c : ℕ) < r) ↔ ((c : ℕ) < i ∧ (c : ℕ) < r) := by omega
      simp only [this]
      split
      · simp
      · rw [if_neg (by omega), extM_apply, sub_self]
    · rw [if_pos (Or.inl ⟨by omega, by omega⟩), if_pos (Or.inl ⟨by omega, by omega⟩), sub_self]
  · intro r c
    have hent : (hhM (shiftW i n w) * C) ⟨i + r, by omega⟩ ⟨i + c, by omega⟩ = (hhM w * vals S) r c := by
      rw [hhM_mul, hhM_mul, shiftW_sum hd, shiftW_add, hCS]
      simp only [hCS]
      rfl
    rw [Matrix.sub_apply, Matrix.sub_apply, hent]
    simp only [bMask, Matrix.of_apply]
    by_cases hm : ((i + (c : ℕ) < i + 1 ∧ i + (c : ℕ) < i + r) ∨ (i + (r : ℕ) < i ∧ i + (r : ℕ) + 1 < i + c))
    · rw [if_pos hm]
      have hc0 : c = ⟨0, hd0⟩ := Fin.ext (by simp; omega)
      have : (hhM w * vals S) r c = 0 := by
        rw [hhM_mul, hc0]
        exact hz r (by omega)
      rw [this, sub_zero, abs_zero]
      exact abs_nonneg _
    · rw [if_neg hm]
      refine le_of_eq ?_
      congr 2
      simp only [vals, mx, Matrix.of_apply]
      rw [if_pos (by omega), Nat.add_sub_cancel_left, Nat.add_sub_cancel_left, extM_apply]

/-- The right half of a step. -/
theorem bidiag_right {n i : ℕ} (hi : i + 1 < n) {a E : Mat (Fl R)} {T N : Matrix (Fin n) (Fin n) (Fl R)}
    {G : Matrix (Fin n) (Fin n) ℝ} {c : ℝ} (ha : Repr a T) (hE : Repr E N) (hG : G.transpose * G = 1)
    (h : fro (vals N - G) ≤ c)
    (hN : ∀ a b : Fin n, (a : ℕ) < i + 1 ∨ (b : ℕ) < i + 1 → (N a b).val = if a = b then 1 else 0)
    (hG1 : ∀ a b : Fin n, (a : ℕ) < i + 1 ∨ (b : ℕ) < i + 1 → G a b = if a = b then 1 else 0)
    (hz : ∀ k : Fin n, i + 1 < (k : ℕ) → (bMask (i + 1) i (vals T) * G) ⟨i, by omega⟩ k = 0) :
    ∃ b, ∃ T2 : Matrix (Fin n) (Fin n) (Fl R), a.mul E = some b ∧ Repr b T2 ∧
      fro (bMask (i + 1) (i + 1) (vals T2) - bMask (i + 1) i (vals T) * G) ≤ mulEps R n c * fro (bMask (i + 1) i (vals T)) := by
  obtain ⟨b, T2, h1, h2, h3⟩ := C88_mul ha hE
  refine ⟨b, T2, h1, h2, ?_⟩
  set C := bMask (i + 1) i (vals T) with hC
  have hg : (1 + R.u) ^ n - 1 = R.gam n := rfl
  rw [hg] at h3
  have g0 := R.gam_nonneg n
  have key : ∀ r k, |(bMask (i + 1) (i + 1) (vals T2) - C * G) r k| ≤
      (R.gam n • ((Matrix.of fun i j => |C i j|) * (Matrix.of fun i j => |vals N i j|)) +
        Matrix.of fun i j => |(C * (vals N - G)) i j|) r k := by
    intro r k
    have hnn : 0 ≤ (R.gam n • ((Matrix.of fun i j => |C i j|) * (Matrix.of fun i j => |vals N i j|)) +
        Matrix.of fun i j => |(C * (vals N - G)) i j|) r k := by
      simp only [Matrix.add_apply, Matrix.smul_apply, Matrix.mul_apply, Matrix.of_apply, smul_eq_mul]
      have : 0 ≤ ∑ j, |C r j| * |vals N j k| := sum_nonneg fun _ _ => by positivity
      positivity
    by_cases hm : (((k : ℕ) < i + 1 ∧ (k : ℕ) < r) ∨ ((r : ℕ) < i + 1 ∧ (r : ℕ) + 1 < k))
    · have e0 : (C * G) r k = 0 := by
        by_cases hri : (r : ℕ) = i
        · by_cases hk : i + 1 < (k : ℕ)
          · have : r = ⟨i, by omega⟩ := Fin.ext hri
            rw [this]
            exact hz k hk
          · rw [Matrix.mul_apply]
            refine sum_eq_zero fun l _ => ?_
            rw [hG1 l k (Or.inr (by omega))]
            by_cases hlk : l = k
            · have : C r l = 0 := by
                simp only [hC, bMask, Matrix.of_apply]
                rw [if_pos]
                rw [hlk]; omega
              rw [this, zero_mul]
            · rw [if_neg hlk, mul_zero]
        · rw [Matrix.mul_apply]
          refine sum_eq_zero fun l _ => ?_
          by_cases hl : (((l : ℕ) < i + 1 ∧ (l : ℕ) < r) ∨ ((r : ℕ) < i ∧ (r : ℕ) + 1 < l))
          · have : C r l = 0 := by
              simp only [hC, bMask, Matrix.of_apply]
              rw [if_pos hl]
            rw [this, zero_mul]
          · rw [hG1 l k (by omega), if_neg (fun h => by rw [h] at hl; omega), mul_zero]
      rw [Matrix.sub_apply, e0]
      simp only [bMask, Matrix.of_apply]
      rw [if_pos hm, sub_zero, abs_zero]
      exact hnn
    · have hterm : ∀ l, (T r l).val * (N l k).val = C r l * (N l k).val := by
        intro l
        by_cases hl : (((l : ℕ) < i + 1 ∧ (l : ℕ) < r) ∨ ((r : ℕ) < i ∧ (r : ℕ) + 1 < l))
        · rw [hN l k (by omega), if_neg (fun h => by rw [h] at hl; omega), mul_zero, mul_zero]
        · have : C r l = (T r l).val := by
            simp only [hC, bMask, Matrix.of_apply]
            rw [if_neg hl]; rfl
          rw [this]
      have e1 : bMask (i + 1) (i + 1) (vals T2) r k = (T2 r k).val := by
        simp only [bMask, Matrix.of_apply]
        rw [if_neg hm]; rfl
      have h4 := h3 r k
      simp only [hterm] at h4
      rw [Matrix.sub_apply, e1]
      have e2 : ∑ l, C r l * (N l k).val - (C * G) r k = (C * (vals N - G)) r k := by
        rw [Matrix.mul_sub]; rfl
      have h5 := abs_add_le ((T2 r k).val - ∑ l, C r l * (N l k).val) (∑ l, C r l * (N l k).val - (C * G) r k)
      rw [sub_add_sub_cancel, e2] at h5
      simp only [Matrix.add_apply, Matrix.smul_apply, Matrix.mul_apply, Matrix.of_apply, smul_eq_mul, vals, ← abs_mul] at h5 ⊢
      linarith
  refine (fro_le_abs key).trans ((fro_add _ _).trans ?_)
  rw [fro_smul, abs_of_nonneg g0, fro_abs]
  have h5 := fro_mul (Matrix.of fun i j => |C i j|) (Matrix.of fun i j => |vals N i j|)
  rw [fro_abs, fro_abs] at h5
  have h6 := fro_refl hG h
  have h7 := fro_mul C (vals N - G)
  have h8 := mul_le_mul_of_nonneg_left h (fro_nonneg C)
  have h9 := mul_le_mul_of_nonneg_left (h5.trans (mul_le_mul_of_nonneg_left h6 (fro_nonneg C))) g0
  rw [mulEps]
  nlinarith

/-- the state before step `i` with rounding: what remains of the matrix is close to `Uᵀ A V` for exactly orthogonal `U` and `V` -/
def BiInvFl {n : ℕ} (A : Matrix (Fin n) (Fin n) (Fl R)) (i : ℕ) (st : Mat (Fl R) × Mat (Fl R) × Mat (Fl R)) : Prop :=
  ∃ (u T v : Matrix (Fin n) (Fin n) (Fl R)) (U V : Matrix (Fin n) (Fin n) ℝ), Repr st.1 u ∧ Repr st.2.1 T ∧ Repr st.2.2 v ∧
    U * U.transpose = 1 ∧ V * V.transpose = 1 ∧
    fro (vals u - U) ≤ ((1 + hessEps R n) ^ i - 1) * √n ∧
    fro (vals v - V) ≤ ((1 + hessEps R n) ^ i - 1) * √n ∧
    fro (bMask i i (vals T) - U.transpose * vals A * V) ≤ ((1 + hessEps R n) ^ (2 * i) - 1) * fro (vals A)

theorem bidiagStep_fl {sqrt : Fl R → Fl R} (hs : FlSqrt sqrt) (hu : R.u < 1) {n i : ℕ} (hi : i + 1 < n)
    {A : Matrix (Fin n) (Fin n) (Fl R)} {st : Mat (Fl R) × Mat (Fl R) × Mat (Fl R)} (h : BiInvFl A i st)
    {o : Option (Mat (Fl R) × Mat (Fl R) × Mat (Fl R))} (hst : Mat.bidiagStep sqrt n n st i = o) :
    (o = none ∧ ∃ C Y : Matrix (Fin n) (Fin n) ℝ, (∀ r c : Fin n, (c : ℕ) ≤ i → i ≤ (r : ℕ) → C r c = 0) ∧
      (∃ U V : Matrix (Fin n) (Fin n) ℝ, U * U.transpose = 1 ∧ V * V.transpose = 1 ∧ Y = U.transpose * vals A * V) ∧
      fro (C - Y) ≤ ((1 + hessEps R n) ^ (2 * i) - 1) * fro (vals A)) ∨
    ∃ st', o = some st' ∧ BiInvFl A (i + 1) st' := by
  obtain ⟨u, T, v, U, V, hU, hT, hV, oU, oV, nU, nV, nT⟩ := h
  obtain ⟨d, hd⟩ : ∃ d, n = i + d := ⟨n - i, by omega⟩
  obtain ⟨e, he⟩ : ∃ e, n = (i + 1) + e := ⟨n - (i + 1), by omega⟩
  set ε := hessEps R n with hε
  have ε0 : 0 ≤ ε := hessEps_nonneg R n
  have hmono : ∀ d, d ≤ n → mulEps R d (hhErr R d) ≤ ε := fun d hd =>
    mulEps_mono R hd (hhErr_nonneg R d) (hhErr_mono R hd)
  have hmono' : ∀ d, d ≤ n → mulEps R n (hhErr R d) ≤ ε := fun d hd =>
    mulEps_mono R le_rfl (hhErr_nonneg R d) (hhErr_mono R hd)
  unfold Mat.bidiagStep at hst
  simp only [Option.bind_eq_bind] at hst
  obtain ⟨ux, a1, a2⟩ := Mat.getColumn_is hT.is (j := i) (by omega)
  obtain ⟨us, b1, b2⟩ := Mat.vgetSlice_of (v := ux) (n := n) (s := i) (e := n - 1) (x := fun r => extM T r i)
    (fun r hr => a2.vget_col hr) (by rw [a2.hm, a2.hn]; split <;> omega) (by omega) (by omega)
  rw [show n - 1 - i + 1 = d by omega] at b2
  rw [a1, Option.bind_some, b1, Option.bind_some] at hst
  have bx : ColRepr us (fun l : Fin d => T ⟨i + l, by omega⟩ ⟨i, by omega⟩) := b2.colRepr_of fun l => by
    rw [extM_lt T (by omega) (by omega)]
  rcases householder_fl hs hu (k := 0) bx (by omega) (by omega) with ⟨e9, e0⟩ | ⟨H, P, w, h1, h2, h3, -, h5, h6⟩
  · left
    rw [e0, Option.bind_some] at hst
    obtain ⟨s, s1, s2⟩ := getSlice_fl (r1 := i) (r2 := n - 1) (c1 := i) (c2 := n - 1) hT.is (by omega) (by omega)
      (by omega) (by omega)
    rw [s1, Option.bind_some] at hst
    have : (Mat.one 1 : Mat (Fl R)).mul s = none := by
      unfold Mat.mul
      rw [if_neg]
      rw [s2.hm]
      show ¬ (1 = _)
      omega
    rw [this] at hst
    refine ⟨hst.symm, bMask i i (vals T), _, fun r c hc hr => ?_, ⟨U, V, oU, oV, rfl⟩, nT⟩
    simp only [bMask, Matrix.of_apply]
    by_cases hci : (c : ℕ) = i
    · split
      · rfl
      · have := e9 ⟨r - i, by omega⟩ (by simp)
        have e1 : (⟨i + (r - i), by omega⟩ : Fin n) = r := Fin.ext (by simp; omega)
        have e2 : c = ⟨i, by omega⟩ := Fin.ext hci
        simp only [e1, ← e2] at this
        exact this
    · rw [if_pos (Or.inl ⟨by omega, by omega⟩)]
  right
  rw [h1, Option.bind_some] at hst
  obtain ⟨s, t, b, T1, c1, c2, c3, c4, c5⟩ := bidiag_left hd (by omega) hT h2 h3 h6 (fun l hl => h5 l hl)
  obtain ⟨E, N, d1, d2, d3, -⟩ := embed_fl hd h2 h6
  have hWu : ∑ r, shiftW i n w r * shiftW i n w r = 1 := shiftW_unit hd h3
  have hWo := hhM_orth hWu
  have hWt := hhM_transpose (shiftW i n w)
  obtain ⟨u', U1, f1, f2, f3⟩ := mul_right_orth hU d2 (by rw [hWt]; exact hWo) d3
  rw [c1, Option.bind_some, c2, Option.bind_some, c3, Option.bind_some, d1, Option.bind_some, f1, Option.bind_some] at hst
  set W := hhM (shiftW i n w) with hW
  obtain ⟨vx, g1, g2⟩ := Mat.getRow_is c4.is (i := i) (by omega)
  obtain ⟨vt, g3, g4⟩ := Mat.transpose_is g2 (Or.inr (Or.inl rfl)) (Or.inl (by norm_num))
  obtain ⟨vs, g5, g6⟩ := Mat.vgetSlice_of (v := vt) (n := n) (s := i + 1) (e := n - 1) (x := fun c => extM T1 i c)
    (fun r hr => g4.vget_col hr) (by rw [g4.hm, g4.hn]; split <;> omega) (by omega) (by omega)
  rw [show n - 1 - (i + 1) + 1 = e by omega] at g6
  have gx : ColRepr vs (fun l : Fin e => T1 ⟨i, by omega⟩ ⟨i + 1 + l, by omega⟩) := g6.colRepr_of fun l => by
    rw [extM_lt T1 (by omega) (by omega)]
  rw [g1, Option.bind_some, g3, Option.bind_some, g5, Option.bind_some] at hst
  set C1 := bMask (i + 1) i (vals T1) with hC1
  have hC1i : ∀ k : Fin n, i < (k : ℕ) → C1 ⟨i, by omega⟩ k = (T1 ⟨i, by omega⟩ k).val := by
    intro k hk
    simp only [hC1, bMask, Matrix.of_apply]
    rw [if_neg (by omega)]
    rfl
  -- the right factor
  have hR : ∃ (vi vn : Mat (Fl R)) (N' : Matrix (Fin n) (Fin n) (Fl R)) (G : Matrix (Fin n) (Fin n) ℝ),
      vs.householder sqrt 0 = some vi ∧ (Mat.one n : Mat (Fl R)).setSlice vi (i + 1) (i + 1) = some vn ∧ Repr vn N' ∧
      G.transpose * G = 1 ∧ fro (vals N' - G) ≤ hhErr R n ∧
      (∀ a b : Fin n, (a : ℕ) < i + 1 ∨ (b : ℕ) < i + 1 → (N' a b).val = if a = b then 1 else 0) ∧
      (∀ a b : Fin n, (a : ℕ) < i + 1 ∨ (b : ℕ) < i + 1 → G a b = if a = b then 1 else 0) ∧
      ∀ k : Fin n, i + 1 < (k : ℕ) → (C1 * G) ⟨i, by omega⟩ k = 0 := by
    have hid : vs.householder sqrt 0 = some (Mat.one 1) → (∀ k : Fin n, i + 1 < (k : ℕ) → C1 ⟨i, by omega⟩ k = 0) →
        ∃ (vi vn : Mat (Fl R)) (N' : Matrix (Fin n) (Fin n) (Fl R)) (G : Matrix (Fin n) (Fin n) ℝ),
      vs.householder sqrt 0 = some vi ∧ (Mat.one n : Mat (Fl R)).setSlice vi (i + 1) (i + 1) = some vn ∧ Repr vn N' ∧
      G.transpose * G = 1 ∧ fro (vals N' - G) ≤ hhErr R n ∧
      (∀ a b : Fin n, (a : ℕ) < i + 1 ∨ (b : ℕ) < i + 1 → (N' a b).val = if a = b then 1 else 0) ∧
      (∀ a b : Fin n, (a : ℕ) < i + 1 ∨ (b : ℕ) < i + 1 → G a b = if a = b then 1 else 0) ∧
      ∀ k : Fin n, i + 1 < (k : ℕ) → (C1 * G) ⟨i, by omega⟩ k = 0 := by
      intro hh hz
      obtain ⟨vn, k1, k2⟩ := Mat.setSlice_is (r := i + 1) (c := i + 1) (Mat.one_is (K := Fl R) n) (Mat.one_is (K := Fl R) 1)
        (by omega) (by omega)
      have hone : ∀ a b : Fin n, ((mx n n fun a b => if i + 1 ≤ a ∧ a < i + 1 + 1 ∧ i + 1 ≤ b ∧ b < i + 1 + 1 then
          (if a - (i + 1) = b - (i + 1) then (1 : Fl R) else 0) else if a = b then 1 else 0) a b).val = if a = b then 1 else 0 := by
        intro a b
        simp only [mx, Fin.ext_iff]
        split
        · rw [if_pos (by omega), if_pos (by omega)]; rfl
        · split <;> rfl
      refine ⟨_, vn, _, 1, hh, k1, k2.repr, by simp, ?_, fun a b _ => hone a b, fun a b _ => Matrix.one_apply, ?_⟩
      · refine le_trans (le_of_eq ?_) (hhErr_nonneg R n)
        have : vals (mx n n fun a b => if i + 1 ≤ a ∧ a < i + 1 + 1 ∧ i + 1 ≤ b ∧ b < i + 1 + 1 then
          (if a - (i + 1) = b - (i + 1) then (1 : Fl R) else 0) else if a = b then 1 else 0) = 1 := by
          ext a b
          rw [Matrix.one_apply]
          exact hone a b
        rw [this]
        simp [fro]
      · intro k hk
        rw [Matrix.mul_one]
        exact hz k hk
    by_cases he1 : e = 1
    · refine hid ?_ (fun c hc => by omega)
      unfold Mat.householder
      rw [g6.hm, if_neg (by omega), if_neg (by omega), if_pos he1, he1]
    · rcases householder_fl hs hu (k := 0) gx (by omega) (by omega) with ⟨e1, e0⟩ | ⟨H', P', w', h1', h2', h3', -, h5', h6'⟩
      · refine hid e0 (fun c hc => ?_)
        rw [hC1i c (by omega)]
        have := e1 ⟨c - (i + 1), by omega⟩ (by simp)
        have e2 : (⟨i + 1 + (c - (i + 1)), by omega⟩ : Fin n) = c := Fin.ext (by simp; omega)
        simpa only [e2] using this
      · obtain ⟨vn, N', k1, k2, k3, k4⟩ := embed_fl he h2' h6'
        refine ⟨H', vn, N', _, h1', k1, k2, ?_, k3.trans (hhErr_mono R (by omega)), k4, ?_, ?_⟩
        · rw [hhM_transpose, hhM_orth (shiftW_unit he h3')]
        · intro a b hab
          simp only [hhM, Matrix.of_apply]
          rcases hab with hab | hab
          · rw [shiftW_lt w' hab, zero_mul, mul_zero, sub_zero]
          · rw [shiftW_lt w' hab, mul_zero, mul_zero, sub_zero]
        · intro k hk
          rw [mul_hhM, shiftW_sum he, hC1i k (by omega)]
          have := h5' ⟨k - (i + 1), by omega⟩ (by simp; omega)
          have e2 : (⟨i + 1 + (k - (i + 1)), by omega⟩ : Fin n) = k := Fin.ext (by simp; omega)
          have e3 : shiftW (i + 1) n w' k = w' ⟨k - (i + 1), by omega⟩ := by
            unfold shiftW
            rw [if_pos (by omega), extV_lt w' (by omega)]
          simp only [e2] at this
          rw [e3, ← this]
          congr 4
          funext l
          rw [hC1i _ (by simp; omega)]
  obtain ⟨vi, vn, N', G, r1, r2, r3, r4, r5, r6, r7, r8⟩ := hR
  have r4' : G * G.transpose = 1 := mul_eq_one_comm.mp r4
  obtain ⟨a', T2, k1, k2, k3⟩ := bidiag_right hi c4 r3 r4 r5 r6 r7 r8
  obtain ⟨v', V1, l1, l2, l3⟩ := mul_right_orth hV r3 r4 r5
  rw [r1, Option.bind_some, r2, Option.bind_some, k1, Option.bind_some, l1, Option.bind_some] at hst
  refine ⟨_, hst.symm, ?_⟩
  have oU' : U.transpose * U = 1 := mul_eq_one_comm.mp oU
  have oV' : V.transpose * V = 1 := mul_eq_one_comm.mp oV
  have hWt' : W.transpose = W := hWt
  refine ⟨U1, T2, V1, U * W, V * G, f2, k2, l2, ?_, ?_, ?_, ?_, ?_⟩
  · rw [Matrix.transpose_mul, hWt', Matrix.mul_assoc, ← Matrix.mul_assoc W, hWo, Matrix.one_mul, oU]
  · rw [Matrix.transpose_mul, Matrix.mul_assoc, ← Matrix.mul_assoc G, r4', Matrix.one_mul, oV]
  · rw [pow_succ, mul_comm _ (1 + ε)]
    refine acc_right (by rw [hWt']; exact hWo) (f3.trans ?_) nU (le_of_eq (fro_of_orth oU')) ε0
    exact mul_le_mul_of_nonneg_right (hmono' d (by omega)) (fro_nonneg _)
  · rw [pow_succ, mul_comm _ (1 + ε)]
    refine acc_right r4' (l3.trans ?_) nV (le_of_eq (fro_of_orth oV')) ε0
    exact mul_le_mul_of_nonneg_right (hmono' n le_rfl) (fro_nonneg _)
  · have s1 : fro (C1 - W * (U.transpose * vals A * V)) ≤ ((1 + ε) * (1 + ε) ^ (2 * i) - 1) * fro (vals A) := by
      refine acc_left (by rw [hWt']; exact hWo) (c5.trans ?_) nT ?_ ε0
      · exact mul_le_mul_of_nonneg_right (hmono d (by omega)) (fro_nonneg _)
      · refine le_of_eq ?_
        have := fro_orth_right (G := V.transpose) (by rw [Matrix.transpose_transpose]; exact oV) (U.transpose * vals A)
        rw [Matrix.transpose_transpose] at this
        rw [this, fro_orth (by rw [Matrix.transpose_transpose]; exact oU)]
    have s2 := acc_right r4' (k3.trans (mul_le_mul_of_nonneg_right (hmono' n le_rfl) (fro_nonneg _))) s1 (by
      refine le_of_eq ?_
      rw [fro_orth (by rw [hWt']; exact hWo)]
      have := fro_orth_right (G := V.transpose) (by rw [Matrix.transpose_transpose]; exact oV) (U.transpose * vals A)
      rw [Matrix.transpose_transpose] at this
      rw [this, fro_orth (by rw [Matrix.transpose_transpose]; exact oU)]) ε0
    have e1 : (U * W).transpose * vals A * (V * G) = W * (U.transpose * vals A * V) * G := by
      rw [Matrix.transpose_mul, hWt']
      simp only [Matrix.mul_assoc]
    have e2 : (1 + ε) ^ (2 * (i + 1)) = (1 + ε) * ((1 + ε) * (1 + ε) ^ (2 * i)) := by ring
    rw [e1, e2]
    exact s2

theorem BiInvFl.start {n : ℕ} {A : Mat (Fl R)} {M : Matrix (Fin n) (Fin n) (Fl R)} (hA : Repr A M) :
    BiInvFl M 0 (Mat.one n, A, Mat.one n) := by
  have hone : vals (mx n n fun i j => if i = j then (1 : Fl R) else 0) = 1 := by
    ext i j
    simp only [vals, mx, Matrix.of_apply, Matrix.one_apply, Fin.ext_iff]
    split <;> rfl
  refine ⟨_, M, _, 1, 1, (Mat.one_is n).repr, hA, (Mat.one_is n).repr, by simp, by simp, ?_, ?_, ?_⟩
  · rw [hone]; simp [fro]
  · rw [hone]; simp [fro]
  · have : bMask 0 0 (vals M) = vals M := by
      ext r c
      simp only [bMask, Matrix.of_apply]
      rw [if_neg (by omega)]
    rw [this]
    simp [fro]

/-- `householder_bidiag` of a square matrix with rounding -/
theorem bidiag_fl {sqrt : Fl R → Fl R} (hs : FlSqrt sqrt) (hu : R.u < 1) {n : ℕ} {A u b v : Mat (Fl R)}
    {M : Matrix (Fin n) (Fin n) (Fl R)} (hA : Repr A M) (h : A.bidiag sqrt = some (u, b, v)) :
    0 < n ∧ ∃ (U' B V' : Matrix (Fin n) (Fin n) (Fl R)) (U V : Matrix (Fin n) (Fin n) ℝ), Repr u U' ∧ Repr b B ∧ Repr v V' ∧
      U * U.transpose = 1 ∧ V * V.transpose = 1 ∧
      fro (vals U' - U) ≤ ((1 + hessEps R n) ^ (n - 1) - 1) * √n ∧
      fro (vals V' - V) ≤ ((1 + hessEps R n) ^ (n - 1) - 1) * √n ∧
      fro (vals B - U.transpose * vals M * V) ≤ ((1 + hessEps R n) ^ (2 * (n - 1)) - 1) * fro (vals M) ∧
      ∀ r c : Fin n, (c : ℕ) ≠ r → (c : ℕ) ≠ r + 1 → (B r c).val = 0 := by
  unfold Mat.bidiag at h
  rw [hA.rows, hA.cols] at h
  by_cases hc : n < n ∨ n = 0
  · rw [if_pos hc] at h; cases h
  rw [if_neg hc] at h
  simp only [Option.bind_eq_bind, Option.bind_eq_some_iff] at h
  obtain ⟨st, e1, a, e2, e3⟩ := h
  have inv := forRange_inv_of_some (P := fun i st => BiInvFl M i st) (BiInvFl.start hA) (by
      intro i s s' _ hi h1 h2
      rcases bidiagStep_fl hs hu (by omega) h1 h2 with ⟨h3, -⟩ | ⟨s1, h3, h4⟩
      · cases h3
      · cases h3
        exact h4) e1
  rw [Nat.max_eq_right (Nat.zero_le (n - 1))] at inv
  obtain ⟨u', T, v', U, V, hU, hT, hV, oU, oV, nU, nV, nT⟩ := inv
  obtain ⟨b', b1, b2⟩ := nullRows (fun i k => k ≠ i ∧ k ≠ i + 1) hT.is
  rw [b1] at e2
  cases e2
  cases e3
  refine ⟨by omega, u', _, v', U, V, hU, b2.repr, hV, oU, oV, nU, nV, ?_, ?_⟩
  · have : vals (mx n n fun i k => if k ≠ i ∧ k ≠ i + 1 then 0 else extM T i k) = bMask (n - 1) (n - 1) (vals T) := by
      ext r c
      simp only [vals, mx, Matrix.of_apply, bMask]
      by_cases hrc : (c : ℕ) ≠ r ∧ (c : ℕ) ≠ r + 1
      · rw [if_pos hrc, if_pos (by omega)]; rfl
      · rw [if_neg hrc, if_neg (by omega), extM_apply]
    rw [this]
    exact nT
  · intro r c h1 h2
    simp only [mx]
    rw [if_pos ⟨h1, h2⟩]
    rfl

/-! ### The sweeps -/

/-- the state of the sweeps after `k` steps: `B` is close to `W B₀ Zᵀ` for exactly orthogonal `W` and `Z` -/
def SwInvFl {n : ℕ} (B₀ V₀ : Matrix (Fin n) (Fin n) ℝ) (k : ℕ) (st : Mat (Fl R) × Mat (Fl R) × Mat (Fl R)) : Prop :=
  ∃ (u B v : Matrix (Fin n) (Fin n) (Fl R)) (W Z : Matrix (Fin n) (Fin n) ℝ), Repr st.1 u ∧ Repr st.2.1 B ∧ Repr st.2.2 v ∧
    W.transpose * W = 1 ∧ Z.transpose * Z = 1 ∧
    fro (vals u - W) ≤ ((1 + rotEps R) ^ k - 1) * √n ∧
    fro (vals v - V₀ * Z.transpose) ≤ ((1 + rotEps R) ^ k - 1) * fro V₀ ∧
    fro (vals B - W * B₀ * Z.transpose) ≤ ((1 + rotEps R) ^ (2 * k) - 1) * fro B₀

theorem msweepStep_fl {sqrt : Fl R → Fl R} (hs : FlSqrt sqrt) (hu : R.u < 1) {n k N : ℕ} (hk : k + 1 < n)
    {B₀ V₀ : Matrix (Fin n) (Fin n) ℝ} {st : Mat (Fl R) × Mat (Fl R) × Mat (Fl R)} (h : SwInvFl B₀ V₀ N st) :
    ∃ st', Mat.msweepStep sqrt n st k = some st' ∧ SwInvFl B₀ V₀ (N + 1) st' := by
  obtain ⟨u, B, v, W, Z, hU, hB, hV, oW, oZ, nU, nV, nB⟩ := h
  set δ := rotEps R with hδ
  have δ0 : 0 ≤ δ := rotEps_nonneg R
  have hk0 : k < n := by omega
  have hne : (⟨k, hk0⟩ : Fin n) ≠ ⟨k + 1, hk⟩ := by simp [Fin.ext_iff]
  unfold Mat.msweepStep
  simp only [Option.bind_eq_bind]
  rw [hB.is.get hk0 hk0, Option.bind_some, hB.is.get hk0 hk, Option.bind_some]
  obtain ⟨c, s, c1, c2, c3⟩ := rot_fl hs hu (extM B k k) (extM B k (k + 1))
  generalize Mat.rot sqrt (extM B k k) (extM B k (k + 1)) = r at c2 c3
  obtain ⟨q, q1, q2⟩ := putRot_fl hk (Mat.one_is (K := Fl R) n) (fun a b _ _ _ => rfl) r.1 r.2.1
  have rn := rotF_near hk c1 c2 c3
  have oG := givensM_orth hne c1
  set G := givensM (⟨k, hk0⟩ : Fin n) ⟨k + 1, hk⟩ c s with hG
  rw [q1, Option.bind_some]
  obtain ⟨qt, t1, t2⟩ := Mat.transpose_is q2 (Or.inl rfl) (Or.inl (by omega))
  have t3 : Repr qt (mx n n (rotF k r.1 r.2.1)).transpose := t2.repr_of fun a b => rfl
  obtain ⟨b1, B1, b2, b3, b4⟩ := rot_mul_right hB t3 rn
  obtain ⟨v1, V1, v2, v3, v4⟩ := rot_mul_right hV t3 rn
  rw [t1, Option.bind_some, b2, Option.bind_some, v2, Option.bind_some]
  rw [b3.is.get hk0 hk0, Option.bind_some, b3.is.get hk hk0, Option.bind_some]
  obtain ⟨c', s', c1', c2', c3'⟩ := rot_fl hs hu (extM B1 k k) (extM B1 (k + 1) k)
  generalize Mat.rot sqrt (extM B1 k k) (extM B1 (k + 1) k) = r' at c2' c3'
  obtain ⟨p, p1, p2⟩ := putRot_fl hk q2 (by
    intro a b ha hb hab
    simp only [rotF]
    by_cases e1 : a = k
    · rw [if_pos e1, if_neg (by omega), if_neg (by omega), if_neg (by omega)]
    · by_cases e2 : a = k + 1
      · rw [if_neg e1, if_pos e2, if_neg (by omega), if_neg (by omega), if_neg (by omega)]
      · rw [if_neg e1, if_neg e2]) r'.1 r'.2.1
  have rn' := rotF_near hk c1' c2' c3'
  have oG' := givensM_orth hne c1'
  set G' := givensM (⟨k, hk0⟩ : Fin n) ⟨k + 1, hk⟩ c' s' with hG'
  obtain ⟨b', B2, d2, d3, d4⟩ := rot_mul_left p2.repr b3 rn'
  obtain ⟨u', U1, u2, u3, u4⟩ := rot_mul_left p2.repr hU rn'
  rw [p1, Option.bind_some, d2, Option.bind_some, u2, Option.bind_some]
  refine ⟨_, rfl, U1, B2, V1, G' * W, G * Z, u3, d3, v3, ?_, ?_, ?_, ?_, ?_⟩
  · rw [Matrix.transpose_mul, Matrix.mul_assoc, ← Matrix.mul_assoc _ G', oG', Matrix.one_mul, oW]
  · rw [Matrix.transpose_mul, Matrix.mul_assoc, ← Matrix.mul_assoc _ G, oG, Matrix.one_mul, oZ]
  · rw [pow_succ, mul_comm _ (1 + δ)]
    exact acc_left oG' u4 nU (le_of_eq (fro_of_orth oW)) δ0
  · rw [pow_succ, mul_comm _ (1 + δ), Matrix.transpose_mul, ← Matrix.mul_assoc]
    exact acc_right (by rw [Matrix.transpose_transpose]; exact oG) v4 nV (le_of_eq (fro_orth_right oZ _)) δ0
  · have n0 : fro (W * B₀ * Z.transpose) = fro B₀ := by rw [fro_orth_right oZ, fro_orth oW]
    have s1 := acc_right (by rw [Matrix.transpose_transpose]; exact oG) b4 nB (le_of_eq n0) δ0
    have s2 := acc_left oG' d4 s1 (le_of_eq (by rw [fro_orth_right oG, n0])) δ0
    have e1 : G' * W * B₀ * (G * Z).transpose = G' * (W * B₀ * Z.transpose * G.transpose) := by
      rw [Matrix.transpose_mul]
      simp only [Matrix.mul_assoc]
    have e2 : (1 + δ) ^ (2 * (N + 1)) = (1 + δ) * ((1 + δ) * (1 + δ) ^ (2 * N)) := by ring
    rw [e1, e2]
    exact s2

theorem msweep_fl {sqrt : Fl R → Fl R} (hs : FlSqrt sqrt) (hu : R.u < 1) {n N : ℕ}
    {B₀ V₀ : Matrix (Fin n) (Fin n) ℝ} {st : Mat (Fl R) × Mat (Fl R) × Mat (Fl R)} (h : SwInvFl B₀ V₀ N st) :
    ∃ st', Mat.msweep sqrt st = some st' ∧ SwInvFl B₀ V₀ (N + (n - 1)) st' := by
  have hn : st.2.1.n = n := by
    obtain ⟨u, B, v, W, Z, hU, hB, -⟩ := h
    exact hB.cols
  unfold Mat.msweep
  rw [hn]
  exact forRange_inv (fun k st => SwInvFl B₀ V₀ (N + k) st) (Nat.zero_le _) h
    (fun i t _ hi ht => msweepStep_fl hs hu (by omega) ht)

/-- a column of `u` changes its sign, up to a rounding, when the diagonal entry is negative -/
theorem svSign_fl {n l : ℕ} (hl : l < n) {U₀ B₀ : Matrix (Fin n) (Fin n) (Fl R)} {st : Mat (Fl R) × Mat (Fl R)}
    (h : ∃ (U : Matrix (Fin n) (Fin n) (Fl R)) (f : ℕ → ℕ → Fl R) (D : Fin n → ℝ), Repr st.1 U ∧ st.2.Is n n f ∧
      (∀ i, D i = 1 ∨ D i = -1) ∧ (∀ r c, |(U r c).val - (U₀ r c).val * D c| ≤ R.u * |(U₀ r c).val|) ∧
      (∀ r c : Fin n, l ≤ (c : ℕ) → U r c = U₀ r c) ∧ (∀ i : Fin n, (f i i).val = D i * (B₀ i i).val) ∧
      (∀ i : Fin n, l ≤ (i : ℕ) → D i = 1) ∧ (∀ i : Fin n, (i : ℕ) < l → 0 ≤ (f i i).val)) :
    ∃ st', Mat.svSign st l = some st' ∧ ∃ (U : Matrix (Fin n) (Fin n) (Fl R)) (f : ℕ → ℕ → Fl R) (D : Fin n → ℝ),
      Repr st'.1 U ∧ st'.2.Is n n f ∧
      (∀ i, D i = 1 ∨ D i = -1) ∧ (∀ r c, |(U r c).val - (U₀ r c).val * D c| ≤ R.u * |(U₀ r c).val|) ∧
      (∀ r c : Fin n, l + 1 ≤ (c : ℕ) → U r c = U₀ r c) ∧ (∀ i : Fin n, (f i i).val = D i * (B₀ i i).val) ∧
      (∀ i : Fin n, l + 1 ≤ (i : ℕ) → D i = 1) ∧ (∀ i : Fin n, (i : ℕ) < l + 1 → 0 ≤ (f i i).val) := by
  obtain ⟨U, f, D, hU, hb, hD, nU, hUl, hf, hDl, hp⟩ := h
  unfold Mat.svSign
  simp only [Option.bind_eq_bind]
  rw [hb.get hl hl, Option.bind_some]
  by_cases hx : f l l < 0
  · rw [if_pos hx, hb.set hl hl, Option.bind_some]
    obtain ⟨c, c1, c2⟩ := Mat.getColumn_is hU.is hl
    obtain ⟨u, u1, u2⟩ := Mat.setColumn_is hU.is (Mat.mulScalar_is c2 (-1)) hl
    rw [c1, Option.bind_some, u1, Option.bind_some]
    have hx' : (f l l).val < 0 := hx
    refine ⟨_, rfl, _, _, fun i => if (i : ℕ) = l then -1 else D i, u2.repr, hb.put hl hl _, ?_, ?_, ?_, ?_, ?_, ?_⟩
    · intro i
      simp only
      split
      · exact Or.inr rfl
      · exact hD i
    · intro r k
      by_cases e : (k : ℕ) = l
      · simp only [mx, e, if_true]
        rw [← e, extM_apply, hUl r k (by omega), Fl.mul_val]
        have : (-1 : Fl R).val = -1 := rfl
        rw [this]
        have := R.err ((U₀ r k).val * -1)
        rwa [abs_mul (U₀ r k).val (-1), abs_neg, abs_one, mul_one] at this
      · simp only [mx, e, if_false]
        rw [extM_apply]
        exact nU r k
    · intro r k hk
      simp only [mx]
      rw [if_neg (by omega), extM_apply]
      exact hUl r k (by omega)
    · intro i
      by_cases e : (i : ℕ) = l
      · simp only [e, if_true]
        rw [upd_same, Fl.neg_val, ← e, hf i, hDl i (by omega)]
        ring
      · simp only [e, if_false]
        rw [upd_ne _ _ (by omega)]
        exact hf i
    · intro i hi
      simp only
      rw [if_neg (by omega)]
      exact hDl i (by omega)
    · intro i hi
      by_cases e : (i : ℕ) = l
      · rw [e, upd_same, Fl.neg_val]
        linarith
      · rw [upd_ne _ _ (by omega)]
        exact hp i (by omega)
  · rw [if_neg hx]
    refine ⟨st, rfl, U, f, D, hU, hb, hD, nU, fun r c hc => hUl r c (by omega), hf, fun i hi => hDl i (by omega), fun i hi => ?_⟩
    by_cases e : (i : ℕ) = l
    · rw [e]
      exact not_lt.1 hx
    · exact hp i (by omega)

/-- the number of rotations on either side that `dec_sv` applies to a matrix with `n` columns -/
def svRots (n : ℕ) : ℕ := 500 * n * n * (n - 1)

/-- The factor of the error of `u`: the reflectors, the rotations, their product and the change of sign. -/
noncomputable def svErrU (R : Rounding ℝ) (n : ℕ) : ℝ :=
  (1 + R.u) * ((1 + mulEps R n (((1 + rotEps R) ^ svRots n - 1) * √n)) * (1 + hessEps R n) ^ (n - 1)) - 1

/-- the factor of the error of `v` -/
noncomputable def svErrV (R : Rounding ℝ) (n : ℕ) : ℝ := (1 + rotEps R) ^ svRots n * (1 + hessEps R n) ^ (n - 1) - 1

/-- the factor of the error of the singular values -/
noncomputable def svErrS (R : Rounding ℝ) (n : ℕ) : ℝ :=
  (1 + rotEps R) ^ (2 * svRots n) * (1 + hessEps R n) ^ (2 * (n - 1)) - 1

/-- the errors of two stages -/
theorem acc_trans {m n : ℕ} {X Y Z : Matrix (Fin m) (Fin n) ℝ} {p q y z : ℝ} (h1 : fro (X - Y) ≤ (p - 1) * y) (h2 : fro (Y - Z) ≤ (q - 1) * z)
    (hy : y ≤ q * z) (hp : 1 ≤ p) : fro (X - Z) ≤ (p * q - 1) * z := by
  have h3 := fro_add (X - Y) (Y - Z)
  rw [sub_add_sub_cancel] at h3
  nlinarith [mul_le_mul_of_nonneg_left hy (sub_nonneg.2 hp)]

/-- `dec_sv` returns whenever the bidiagonalization does -/
theorem decSv_fl {sqrt : Fl R → Fl R} (hs : FlSqrt sqrt) (hu : R.u < 1) {n : ℕ} {A : Mat (Fl R)}
    {M : Matrix (Fin n) (Fin n) (Fl R)} (hA : Repr A M) (h : A.bidiag sqrt ≠ none) :
    ∃ u s v, A.decSv sqrt = some (u, s, v) ∧
    ∃ (U' S V' : Matrix (Fin n) (Fin n) (Fl R)) (U V : Matrix (Fin n) (Fin n) ℝ), Repr u U' ∧ Repr s S ∧ Repr v V' ∧
      U * U.transpose = 1 ∧ V * V.transpose = 1 ∧ (∀ i j, i ≠ j → (S i j).val = 0) ∧ (∀ i, 0 ≤ (S i i).val) ∧
      fro (vals U' - U) ≤ svErrU R n * √n ∧ fro (vals V' - V) ≤ svErrV R n * √n ∧
      √(∑ i, ((S i i).val - (U.transpose * vals M * V) i i) ^ 2) ≤ svErrS R n * fro (vals M) := by
  obtain ⟨⟨u0, b0, v0⟩, h0⟩ := Option.ne_none_iff_exists'.1 h
  obtain ⟨hn, U0', B0', V0', U0, V0, a1, a2, a3, a4, a5, a6, a7, a8, -⟩ := bidiag_fl hs hu hA h0
  have oU0 : U0.transpose * U0 = 1 := mul_eq_one_comm.mp a4
  have oV0 : V0.transpose * V0 = 1 := mul_eq_one_comm.mp a5
  set ε := hessEps R n with hε
  have ε0 : 0 ≤ ε := hessEps_nonneg R n
  set δ := rotEps R with hδ
  have δ0 : 0 ≤ δ := rotEps_nonneg R
  have hone : vals (mx n n fun i j => if i = j then (1 : Fl R) else 0) = 1 := by
    ext i j
    simp only [vals, mx, Matrix.of_apply, Matrix.one_apply, Fin.ext_iff]
    split <;> rfl
  have i0 : SwInvFl (vals B0') (vals V0') 0 (Mat.one n, b0, v0) := by
    refine ⟨_, B0', V0', 1, 1, (Mat.one_is n).repr, a2, a3, by simp, by simp, ?_, ?_, ?_⟩
    · rw [hone]; simp [fro]
    · simp [fro]
    · simp [fro]
  obtain ⟨st, e1, inv⟩ := forRange_inv (a := 0) (b := 500 * n * n) (f := fun st _ => Mat.msweep sqrt st)
    (s := (Mat.one n, b0, v0)) (fun k st => SwInvFl (vals B0') (vals V0') (k * (n - 1)) st) (by omega) (by simpa using i0)
    (fun i t _ _ ht => by
      obtain ⟨t', q1, q2⟩ := msweep_fl hs hu ht
      refine ⟨t', q1, ?_⟩
      rw [Nat.add_mul, one_mul]
      exact q2)
  rw [show 500 * n * n * (n - 1) = svRots n from rfl] at inv
  set N := svRots n with hN
  obtain ⟨U1', B1, V1', W, Z, c1, c2, c3, oW, oZ, nU, nV, nB⟩ := inv
  obtain ⟨ut, t1, t2⟩ := Mat.transpose_is c1.is (Or.inl rfl) (Or.inl hn)
  have t3 : Repr ut U1'.transpose := t2.repr_of fun a b => extM_apply _ b a
  have oW' : W * W.transpose = 1 := mul_eq_one_comm.mp oW
  have t4 : fro (vals U1'.transpose - W.transpose) ≤ ((1 + δ) ^ N - 1) * √n := by
    have : vals U1'.transpose - W.transpose = (vals U1' - W).transpose := by rw [Matrix.transpose_sub]; rfl
    rw [this, fro_transpose]
    exact nU
  obtain ⟨u2, U2, w1, w2, w3⟩ := mul_right_orth a1 t3 (H := W.transpose) (by rw [Matrix.transpose_transpose]; exact oW') t4
  have cN : 0 ≤ ((1 + δ) ^ N - 1) * √n := (fro_nonneg _).trans t4
  have w4 := acc_right (by rw [Matrix.transpose_transpose]; exact oW) w3 a6 (le_of_eq (fro_of_orth oU0)) (mulEps_nonneg R n cN)
  obtain ⟨ub, d1, U3, f3, D, d2, d3, hD, d4, -, d6, -, d8⟩ := forRange_inv (a := 0) (b := n) (s := (u2, st.2.1))
    (f := Mat.svSign) (fun l st => ∃ (U : Matrix (Fin n) (Fin n) (Fl R)) (f : ℕ → ℕ → Fl R) (D : Fin n → ℝ), Repr st.1 U ∧ st.2.Is n n f ∧
      (∀ i, D i = 1 ∨ D i = -1) ∧ (∀ r c, |(U r c).val - (U2 r c).val * D c| ≤ R.u * |(U2 r c).val|) ∧
      (∀ r c : Fin n, l ≤ (c : ℕ) → U r c = U2 r c) ∧ (∀ i : Fin n, (f i i).val = D i * (B1 i i).val) ∧
      (∀ i : Fin n, l ≤ (i : ℕ) → D i = 1) ∧ (∀ i : Fin n, (i : ℕ) < l → 0 ≤ (f i i).val))
    (by omega) ⟨U2, _, fun _ => 1, w2, c2.is, fun _ => Or.inl rfl, fun r c => by
        rw [mul_one, sub_self, abs_zero]; exact mul_nonneg R.u_nonneg (abs_nonneg _), fun _ _ _ => rfl,
        fun i => by rw [extM_apply, one_mul], fun _ _ => rfl, fun i hi => absurd hi (by omega)⟩
    (fun l t _ hl ht => svSign_fl hl ht)
  obtain ⟨b', n1, n2⟩ := svNull_is d3
  have hDD : ∀ i, D i * D i = 1 := fun i => by rcases hD i with h | h <;> rw [h] <;> norm_num
  have oD : (Matrix.diagonal D).transpose * Matrix.diagonal D = 1 := by
    rw [Matrix.diagonal_transpose, Matrix.diagonal_mul_diagonal, ← Matrix.diagonal_one]
    congr 1
    funext i
    exact hDD i
  have oD' : Matrix.diagonal D * (Matrix.diagonal D).transpose = 1 := mul_eq_one_comm.mp oD
  have w5 : fro (vals U3 - vals U2 * Matrix.diagonal D) ≤ R.u * fro (vals U2) := by
    have : ∀ r c, |(vals U3 - vals U2 * Matrix.diagonal D) r c| ≤ (R.u • Matrix.of fun r c => |vals U2 r c|) r c := by
      intro r c
      rw [Matrix.sub_apply, Matrix.mul_diagonal]
      exact d4 r c
    refine (fro_le_abs this).trans ?_
    rw [fro_smul, fro_abs, abs_of_nonneg R.u_nonneg]
  have w6 := acc_right oD' w5 w4 (le_of_eq (by rw [fro_orth_right oW, fro_of_orth oU0])) R.u_nonneg
  have oZ' : Z * Z.transpose = 1 := mul_eq_one_comm.mp oZ
  -- the sizes after the bidiagonalization
  have sV : fro (vals V0') ≤ (1 + ε) ^ (n - 1) * √n := by
    have := fro_add (vals V0' - V0) V0
    rw [sub_add_cancel, fro_of_orth oV0] at this
    linarith
  have sA : fro (U0.transpose * vals M * V0) = fro (vals M) := by
    have := fro_orth_right (G := V0.transpose) (by rw [Matrix.transpose_transpose]; exact a5) (U0.transpose * vals M)
    rw [Matrix.transpose_transpose] at this
    rw [this, fro_orth (by rw [Matrix.transpose_transpose]; exact a4)]
  have sB : fro (vals B0') ≤ (1 + ε) ^ (2 * (n - 1)) * fro (vals M) := by
    have := fro_add (vals B0' - U0.transpose * vals M * V0) (U0.transpose * vals M * V0)
    rw [sub_add_cancel, sA] at this
    linarith
  have v5 : fro (vals V1' - V0 * Z.transpose) ≤ svErrV R n * √n := by
    have e : fro (vals V0' * Z.transpose - V0 * Z.transpose) ≤ ((1 + ε) ^ (n - 1) - 1) * √n := by
      rw [← Matrix.sub_mul, fro_orth_right oZ]
      exact a7
    exact acc_trans nV e sV (one_le_pow₀ (by linarith))
  have b5 : fro (vals B1 - W * (U0.transpose * vals M * V0) * Z.transpose) ≤ svErrS R n * fro (vals M) := by
    have e : fro (W * vals B0' * Z.transpose - W * (U0.transpose * vals M * V0) * Z.transpose) ≤
        ((1 + ε) ^ (2 * (n - 1)) - 1) * fro (vals M) := by
      rw [← Matrix.sub_mul, ← Matrix.mul_sub, fro_orth_right oZ, fro_orth oW]
      exact a8
    exact acc_trans nB e sB (one_le_pow₀ (by linarith))
  refine ⟨ub.1, b', st.2.2, ?_, U3, _, V1', U0 * W.transpose * Matrix.diagonal D, V0 * Z.transpose, d2, n2.repr, c3, ?_, ?_, ?_, ?_, w6, v5, ?_⟩
  · unfold Mat.decSv
    rw [h0]
    simp only [Option.bind_eq_bind, Option.bind_some, a2.cols]
    rw [e1, Option.bind_some, t1, Option.bind_some, w1, Option.bind_some, c2.rows, d1, Option.bind_some, n1, Option.bind_some]
  · rw [Matrix.transpose_mul, Matrix.mul_assoc, ← Matrix.mul_assoc _ _ (U0 * W.transpose).transpose, oD', Matrix.one_mul,
      Matrix.transpose_mul, Matrix.transpose_transpose, Matrix.mul_assoc, ← Matrix.mul_assoc _ W, oW, Matrix.one_mul, a4]
  · rw [Matrix.transpose_mul, Matrix.transpose_transpose, Matrix.mul_assoc, ← Matrix.mul_assoc _ Z, oZ, Matrix.one_mul, a5]
  · intro i j hij
    simp only [mx]
    rw [if_pos (fun h => hij (Fin.ext h))]
    rfl
  · intro i
    simp only [mx, ne_eq, not_true_eq_false, if_false]
    exact d8 i i.2
  · refine le_trans ?_ b5
    have hdiag : ∀ i, (mx n n (fun i k => if i ≠ k then 0 else f3 i k) i i).val -
        ((U0 * W.transpose * Matrix.diagonal D).transpose * vals M * (V0 * Z.transpose)) i i =
        D i * (vals B1 - W * (U0.transpose * vals M * V0) * Z.transpose) i i := by
      intro i
      have e : (U0 * W.transpose * Matrix.diagonal D).transpose * vals M * (V0 * Z.transpose) =
          Matrix.diagonal D * (W * (U0.transpose * vals M * V0) * Z.transpose) := by
        rw [Matrix.transpose_mul, Matrix.diagonal_transpose, Matrix.transpose_mul, Matrix.transpose_transpose]
        simp only [Matrix.mul_assoc]
      rw [e, Matrix.diagonal_mul]
      simp only [mx, ne_eq, not_true_eq_false, if_false]
      rw [d6, Matrix.sub_apply, mul_sub]
      rfl
    simp only [hdiag]
    refine Real.sqrt_le_sqrt (sum_le_sum fun i _ => ?_)
    rw [mul_pow, sq (D i), hDD, one_mul]
    exact single_le_sum (f := fun j => (vals B1 - W * (U0.transpose * vals M * V0) * Z.transpose) i j ^ 2)
      (fun j _ => sq_nonneg _) (mem_univ i)

/-! ### The property -/

/-- **C117, bidiagonalization.** What `householder_bidiag` returns for a square matrix: `b` is exactly bidiagonal, there are exactly
orthogonal `U`, `V` close to the computed ones, and `b` is close to `Uᵀ A V` in the Frobenius norm. -/
theorem C117_bidiag {sqrt : Fl R → Fl R} (hs : FlSqrt sqrt) (hu : R.u < 1) {n : ℕ} {A u b v : Mat (Fl R)}
    {M : Matrix (Fin n) (Fin n) (Fl R)} (hA : Repr A M) (h : A.bidiag sqrt = some (u, b, v)) :
    ∃ (U' B V' : Matrix (Fin n) (Fin n) (Fl R)) (U V : Matrix (Fin n) (Fin n) ℝ), Repr u U' ∧ Repr b B ∧ Repr v V' ∧
      U * U.transpose = 1 ∧ V * V.transpose = 1 ∧
      fro (vals U' - U) ≤ ((1 + hessEps R n) ^ (n - 1) - 1) * √n ∧
      fro (vals V' - V) ≤ ((1 + hessEps R n) ^ (n - 1) - 1) * √n ∧
      fro (vals B - U.transpose * vals M * V) ≤ ((1 + hessEps R n) ^ (2 * (n - 1)) - 1) * fro (vals M) ∧
      ∀ r c : Fin n, (c : ℕ) ≠ r → (c : ℕ) ≠ r + 1 → (B r c).val = 0 :=
  (bidiag_fl hs hu hA h).2

/-- how far `A` is from `U S Vᵀ` when `S` is close to the diagonal of `Uᵀ A V` -/
theorem sv_residual {n : ℕ} {A U S V : Matrix (Fin n) (Fin n) ℝ} (hU : U * U.transpose = 1) (hV : V * V.transpose = 1)
    (hS : ∀ i j, i ≠ j → S i j = 0) {η : ℝ} (h : √(∑ i, (S i i - (U.transpose * A * V) i i) ^ 2) ≤ η) :
    fro (A - U * S * V.transpose) ^ 2 ≤ fro A ^ 2 - ∑ i, S i i ^ 2 + 2 * η * √(∑ i, S i i ^ 2) := by
  set X := U.transpose * A * V with hX
  have e1 : fro X = fro A := by
    have := fro_orth_right (G := V.transpose) (by rw [Matrix.transpose_transpose]; exact hV) (U.transpose * A)
    rw [Matrix.transpose_transpose] at this
    rw [hX, this, fro_orth (by rw [Matrix.transpose_transpose]; exact hU)]
  have e2 : fro (A - U * S * V.transpose) = fro (X - S) := by
    have hU' : U.transpose * U = 1 := mul_eq_one_comm.mp hU
    have hV' : V.transpose * V = 1 := mul_eq_one_comm.mp hV
    have : A - U * S * V.transpose = U * (X - S) * V.transpose := by
      rw [hX, Matrix.mul_sub, Matrix.sub_mul]
      congr 1
      calc A = (U * U.transpose) * A * (V * V.transpose) := by rw [hU, hV, Matrix.one_mul, Matrix.mul_one]
        _ = _ := by simp only [Matrix.mul_assoc]
    rw [this, fro_orth_right hV', fro_orth hU']
  rw [e2, ← e1, fro_sq, fro_sq]
  have e3 : ∀ i, ∑ j, (X - S) i j ^ 2 = ∑ j, X i j ^ 2 - S i i ^ 2 + 2 * (S i i * (S i i - X i i)) := by
    intro i
    rw [← add_sum_erase _ _ (mem_univ i), ← add_sum_erase _ (fun j => X i j ^ 2) (mem_univ i)]
    have : ∑ j ∈ univ.erase i, (X - S) i j ^ 2 = ∑ j ∈ univ.erase i, X i j ^ 2 := sum_congr rfl fun j hj => by
      rw [Matrix.sub_apply, hS i j (ne_of_mem_erase hj).symm, sub_zero]
    rw [this, Matrix.sub_apply]
    ring
  simp only [e3]
  rw [sum_add_distrib, sum_sub_distrib, ← mul_sum]
  have h1 := Real.sum_mul_le_sqrt_mul_sqrt univ (fun i => S i i) (fun i => S i i - X i i)
  have h2 := mul_le_mul_of_nonneg_left h (Real.sqrt_nonneg (∑ i, S i i ^ 2))
  linarith

/-- **C117, singular values.** What `dec_sv` returns for a square matrix: there are exactly orthogonal `U`, `V` close to the computed
ones, and the computed diagonal is close to the diagonal of `Uᵀ A V`, in the Frobenius norm. The returned `s` is diagonal and not
negative, and `A` is as close to `U s Vᵀ` as the sum of the squares of `s` is to that of the entries of `A`. Missing from C117: that
these two sums are close to one another, for which the number of sweeps must suffice. -/
theorem C117_sv_partial {sqrt : Fl R → Fl R} (hs : FlSqrt sqrt) (hu : R.u < 1) {n : ℕ} {A u s v : Mat (Fl R)}
    {M : Matrix (Fin n) (Fin n) (Fl R)} (hA : Repr A M) (h : A.decSv sqrt = some (u, s, v)) :
    ∃ (U' S V' : Matrix (Fin n) (Fin n) (Fl R)) (U V : Matrix (Fin n) (Fin n) ℝ), Repr u U' ∧ Repr s S ∧ Repr v V' ∧
      U * U.transpose = 1 ∧ V * V.transpose = 1 ∧ (∀ i j, i ≠ j → (S i j).val = 0) ∧ (∀ i, 0 ≤ (S i i).val) ∧
      fro (vals U' - U) ≤ svErrU R n * √n ∧ fro (vals V' - V) ≤ svErrV R n * √n ∧
      √(∑ i, ((S i i).val - (U.transpose * vals M * V) i i) ^ 2) ≤ svErrS R n * fro (vals M) ∧
      fro (vals M - U * vals S * V.transpose) ^ 2 ≤
        fro (vals M) ^ 2 - ∑ i, (S i i).val ^ 2 + 2 * (svErrS R n * fro (vals M)) * √(∑ i, (S i i).val ^ 2) := by
  have h0 : A.bidiag sqrt ≠ none := by
    intro h0
    unfold Mat.decSv at h
    rw [h0] at h
    cases h
  obtain ⟨u', s', v', h1, U', S, V', U, V, a1, a2, a3, a4, a5, a6, a7, a8, a9, a10⟩ := decSv_fl hs hu hA h0
  rw [h] at h1
  cases h1
  exact ⟨U', S, V', U, V, a1, a2, a3, a4, a5, a6, a7, a8, a9, a10, sv_residual (S := vals S) a4 a5 a6 a10⟩

/-- **C117, return.** `householder_bidiag` and `dec_sv` return for every square matrix that is not within the rounding errors of a
singular one. -/
theorem C117_sv_returns {sqrt : Fl R → Fl R} (hs : FlSqrt sqrt) (hu : R.u < 1) {n : ℕ} (hn : 0 < n) {A : Mat (Fl R)}
    {M : Matrix (Fin n) (Fin n) (Fl R)} (hA : Repr A M)
    (hM : ∀ E : Matrix (Fin n) (Fin n) ℝ, fro E ≤ ((1 + hessEps R n) ^ (2 * (n - 1)) - 1) * fro (vals M) → (vals M + E).det ≠ 0) :
    A.bidiag sqrt ≠ none ∧ A.decSv sqrt ≠ none := by
  have h0 : A.bidiag sqrt ≠ none := by
    obtain ⟨st, e1, u', T, v', U, V, hU, hT, hV, -⟩ := forRange_inv (a := 0) (b := n - 1) (f := Mat.bidiagStep sqrt n n)
      (s := (Mat.one n, A, Mat.one n)) (fun i st => BiInvFl M i st) (by omega) (BiInvFl.start hA) (by
      intro i s _ hi h1
      rcases bidiagStep_fl hs hu (by omega) h1 rfl with ⟨-, C, Y, h2, ⟨U, V, oU, oV, rfl⟩, h4⟩ | h3
      · exfalso
        have oU' : U.transpose * U = 1 := mul_eq_one_comm.mp oU
        have oV' : V.transpose * V = 1 := mul_eq_one_comm.mp oV
        refine hM (U * (C - U.transpose * vals M * V) * V.transpose) ?_ ?_
        · rw [fro_orth_right oV', fro_orth oU']
          refine h4.trans (mul_le_mul_of_nonneg_right ?_ (fro_nonneg _))
          have := hessEps_nonneg R n
          exact sub_le_sub_right (pow_le_pow_right₀ (by linarith) (by omega)) _
        · have : vals M + U * (C - U.transpose * vals M * V) * V.transpose = U * C * V.transpose := by
            rw [Matrix.mul_sub, Matrix.sub_mul]
            have : U * (U.transpose * vals M * V) * V.transpose = (U * U.transpose) * vals M * (V * V.transpose) := by
              simp only [Matrix.mul_assoc]
            rw [this, oU, oV, Matrix.one_mul, Matrix.mul_one, add_sub_cancel]
          rw [this, Matrix.det_mul, Matrix.det_mul, det_zero_of_cols (by omega) h2, mul_zero, zero_mul]
      · exact h3)
    obtain ⟨b', b1, b2⟩ := nullRows (fun i k => k ≠ i ∧ k ≠ i + 1) hT.is
    unfold Mat.bidiag
    rw [hA.rows, hA.cols, if_neg (by omega), e1]
    simp only [Option.bind_eq_bind, Option.bind_some]
    rw [b1]
    simp
  refine ⟨h0, ?_⟩
  obtain ⟨u, s, v, h1, -⟩ := decSv_fl hs hu hA h0
  rw [h1]
  simp

/-- **C117, size of the errors.** In `f64` the errors of the singular values are at most `30000 n³ 2⁻⁵³` times the norm of the matrix:
the `500 n²` sweeps account for most of it. -/
theorem C117_size {n : ℕ} (hn : 2 ≤ n) (h : 30000 * (n : ℝ) ^ 4 * R.u ≤ 1) :
    svErrS R n ≤ 30000 * (n : ℝ) ^ 3 * R.u ∧ svErrV R n ≤ 30000 * (n : ℝ) ^ 3 * R.u ∧ svErrU R n ≤ 30000 * (n : ℝ) ^ 4 * R.u := by
  have u0 := R.u_nonneg
  have hn' : (2 : ℝ) ≤ n := by exact_mod_cast hn
  have hx0 : 0 ≤ (n : ℝ) ^ 3 * R.u := by positivity
  have hxy : (n : ℝ) ^ 3 * R.u ≤ (n : ℝ) ^ 4 * R.u / 2 := by
    have : (n : ℝ) ^ 4 * R.u = n * ((n : ℝ) ^ 3 * R.u) := by ring
    rw [this]; nlinarith
  have hn2 : (n : ℝ) ^ 2 * R.u ≤ (n : ℝ) ^ 3 * R.u / 2 := by
    have : (n : ℝ) ^ 3 * R.u = n * ((n : ℝ) ^ 2 * R.u) := by ring
    have h0 : 0 ≤ (n : ℝ) ^ 2 * R.u := by positivity
    rw [this]; nlinarith
  have hn1 : (n : ℝ) * R.u ≤ (n : ℝ) ^ 2 * R.u / 2 := by
    have : (n : ℝ) ^ 2 * R.u = n * ((n : ℝ) * R.u) := by ring
    have h0 : 0 ≤ (n : ℝ) * R.u := by positivity
    rw [this]; nlinarith
  have hn0 : R.u ≤ (n : ℝ) * R.u / 2 := by nlinarith
  have hε0 := hessEps_nonneg R n
  have hδ0 := rotEps_nonneg R
  have hsq : √(n : ℝ) ≤ n := by
    rw [Real.sqrt_le_left (by linarith)]
    nlinarith
  have sq0 := Real.sqrt_nonneg (n : ℝ)
  have hy : (n : ℝ) ^ 4 * R.u ≤ 1 / 30000 := by linarith
  have hexp : ∀ m : ℕ, (m : ℝ) * R.u ≤ 1 → (1 + R.u) ^ m ≤ 1 + m * R.u + (m * R.u) ^ 2 := by
    intro m hm
    have h1 : (1 + R.u) ^ m ≤ Real.exp (m * R.u) := by
      rw [mul_comm, Real.exp_mul, Real.rpow_natCast]
      refine pow_le_pow_left₀ (by linarith) ?_ m
      linarith [Real.add_one_le_exp R.u]
    have h0 : 0 ≤ (m : ℝ) * R.u := by positivity
    have := Real.abs_exp_sub_one_sub_id_le (x := m * R.u) (by rw [abs_of_nonneg h0]; linarith)
    have := (abs_le.1 this).2
    linarith
  have hrot : ∀ m : ℕ, (1 + rotEps R) ^ m ≤ (1 + R.u) ^ (18 * m) := by
    intro m
    rw [pow_mul]
    refine pow_le_pow_left₀ (by linarith) ?_ m
    rw [rotEps, Rounding.gam, show (18 : ℕ) = 9 * 2 from rfl, pow_mul]
    nlinarith [sq_nonneg ((1 + R.u) ^ 9 - 1)]
  have hN : (svRots n : ℝ) ≤ 500 * (n : ℝ) ^ 3 := by
    have : svRots n ≤ 500 * n ^ 3 := by
      rw [svRots, show 500 * n ^ 3 = 500 * n * n * n by ring]
      exact Nat.mul_le_mul_left _ (by omega)
    exact_mod_cast this
  have hNu : (svRots n : ℝ) * R.u ≤ 500 * ((n : ℝ) ^ 3 * R.u) := by nlinarith
  have hNu0 : 0 ≤ (svRots n : ℝ) * R.u := by positivity
  have r1 : (1 + rotEps R) ^ svRots n ≤ 1 + 10500 * ((n : ℝ) ^ 3 * R.u) := by
    refine (hrot _).trans ((hexp _ (by push_cast; nlinarith)).trans ?_)
    push_cast
    rw [mul_assoc]
    generalize (svRots n : ℝ) * R.u = t at *
    nlinarith
  have r2 : (1 + rotEps R) ^ (2 * svRots n) ≤ 1 + 24000 * ((n : ℝ) ^ 3 * R.u) := by
    refine (hrot _).trans ((hexp _ (by push_cast; nlinarith)).trans ?_)
    push_cast
    rw [show 18 * (2 * (svRots n : ℝ)) * R.u = 36 * (svRots n * R.u) by ring]
    generalize (svRots n : ℝ) * R.u = t at *
    nlinarith
  have hh2 := C116_size hn (R := R) (by linarith)
  have hh1 : (1 + hessEps R n) ^ (n - 1) ≤ (1 + hessEps R n) ^ (2 * (n - 1)) :=
    pow_le_pow_right₀ (by linarith) (by omega)
  have p1 : 1 ≤ (1 + rotEps R) ^ svRots n := one_le_pow₀ (by linarith)
  have p2 : 1 ≤ (1 + rotEps R) ^ (2 * svRots n) := one_le_pow₀ (by linarith)
  have p3 : (1 + rotEps R) ^ svRots n ≤ (1 + rotEps R) ^ (2 * svRots n) := pow_le_pow_right₀ (by linarith) (by omega)
  have p4 : 1 ≤ (1 + hessEps R n) ^ (n - 1) := one_le_pow₀ (by linarith)
  have hS : svErrS R n ≤ 30000 * (n : ℝ) ^ 3 * R.u := by
    rw [svErrS]
    generalize (1 + rotEps R) ^ (2 * svRots n) = a at *
    generalize (1 + hessEps R n) ^ (2 * (n - 1)) = b at *
    rw [mul_assoc] at hh2 ⊢
    generalize (n : ℝ) ^ 3 * R.u = x at *
    have : a * b ≤ (1 + 24000 * x) * (1 + 100 * x) := mul_le_mul r2 (by linarith) (by linarith) (by linarith)
    nlinarith
  refine ⟨hS, le_trans ?_ hS, ?_⟩
  · rw [svErrV, svErrS]
    exact sub_le_sub_right (mul_le_mul p3 hh1 (by linarith) (by linarith)) _
  · have hc0 : 0 ≤ ((1 + rotEps R) ^ svRots n - 1) * √n := mul_nonneg (by linarith) sq0
    have hc : ((1 + rotEps R) ^ svRots n - 1) * √n ≤ 10500 * ((n : ℝ) ^ 4 * R.u) := by
      refine (mul_le_mul (show _ ≤ 10500 * ((n : ℝ) ^ 3 * R.u) by linarith) hsq sq0 (by linarith)).trans (le_of_eq (by ring))
    rw [svErrU, mulEps]
    set c := ((1 + rotEps R) ^ svRots n - 1) * √n with hcdef
    have g : R.gam n ≤ 2 * (n * R.u) := by
      have := hexp n (by linarith)
      rw [Rounding.gam]
      have h0 : 0 ≤ (n : ℝ) * R.u := by positivity
      nlinarith
    have g2 : R.gam n * (√n + c) ≤ 3 * ((n : ℝ) ^ 2 * R.u) := by
      have := mul_le_mul g (show √n + c ≤ 1.5 * n by linarith) (by linarith) (by positivity)
      refine this.trans (le_of_eq (by ring))
    have g0 : 0 ≤ R.gam n * (√n + c) := mul_nonneg (R.gam_nonneg n) (by linarith)
    generalize R.gam n * (√n + c) = d at *
    generalize (1 + hessEps R n) ^ (n - 1) = b at *
    have hb : b ≤ 1 + 50 * ((n : ℝ) ^ 4 * R.u) := by linarith
    have hcd : 1 + (c + d) ≤ 1 + 10501 * ((n : ℝ) ^ 4 * R.u) := by linarith
    have hu1 : 1 + R.u ≤ 1 + (n : ℝ) ^ 4 * R.u := by linarith
    rw [mul_assoc 30000]
    have hy0 : 0 ≤ (n : ℝ) ^ 4 * R.u := by positivity
    generalize (n : ℝ) ^ 4 * R.u = y at *
    have k1 : (1 + (c + d)) * b ≤ (1 + 10501 * y) * (1 + 50 * y) := mul_le_mul hcd hb (by linarith) (by linarith)
    have k2 : (1 + 10501 * y) * (1 + 50 * y) ≤ 1 + 10600 * y := by nlinarith
    have k3 : (1 + R.u) * ((1 + (c + d)) * b) ≤ (1 + y) * (1 + 10600 * y) :=
      mul_le_mul hu1 (k1.trans k2) (mul_nonneg (by linarith) (by linarith)) (by linarith)
    have k4 : y * y ≤ y * (1 / 30000) := mul_le_mul_of_nonneg_left hy hy0
    linarith

/-- in `f64` a matrix with 10 rows and columns: the singular values are off by at most `4e-9` times its norm -/
example (h : R.u = 1 / 2 ^ 53) : svErrS R 10 ≤ (4 : ℝ) / 10 ^ 9 := by
  refine (C117_size (by norm_num) ?_).1.trans ?_
  · rw [h]; norm_num
  · rw [h]; norm_num

/-- with 53 bits: for the matrix with the rows `(1, 2)` and `(3, 4)` the decomposition is returned, with singular values within `10^-9` of the
diagonal of `Uᵀ A V` -/
example (p : ℕ) (hp : 1 ≤ p) (h53 : p = 53) :
    ∃ (u s v : Mat (Fl (binary ℝ p hp))) (S : Matrix (Fin 2) (Fin 2) (Fl (binary ℝ p hp))) (U V : Matrix (Fin 2) (Fin 2) ℝ),
      Mat.decSv (flSqrt _) (⟨2, 2, [⟨1⟩, ⟨3⟩, ⟨2⟩, ⟨4⟩]⟩ : Mat (Fl (binary ℝ p hp))) = some (u, s, v) ∧ Repr s S ∧
        U * U.transpose = 1 ∧ V * V.transpose = 1 ∧ ∀ i, |(S i i).val - (U.transpose * (!![1, 2; 3, 4] : Matrix (Fin 2) (Fin 2) ℝ) * V) i i| ≤ 1 / 10 ^ 9 := by
  have hu : (binary ℝ p hp).u = 1 / 2 ^ 53 := by subst h53; norm_num [binary]
  have hA : Repr (⟨2, 2, [⟨1⟩, ⟨3⟩, ⟨2⟩, ⟨4⟩]⟩ : Mat (Fl (binary ℝ p hp))) !![⟨1⟩, ⟨2⟩; ⟨3⟩, ⟨4⟩] := by
    constructor <;> simp [Mat.get, Fin.forall_fin_succ]
  have hv : vals (!![⟨1⟩, ⟨2⟩; ⟨3⟩, ⟨4⟩] : Matrix (Fin 2) (Fin 2) (Fl (binary ℝ p hp))) = !![1, 2; 3, 4] := by
    ext i j
    fin_cases i <;> fin_cases j <;> rfl
  have hf : fro (!![1, 2; 3, 4] : Matrix (Fin 2) (Fin 2) ℝ) ≤ 6 := by
    rw [fro, Real.sqrt_le_left (by norm_num)]
    simp [Fin.sum_univ_two]
    norm_num
  have hd := C116_size (R := binary ℝ p hp) (n := 2) (by norm_num) (by rw [hu]; norm_num)
  obtain ⟨-, h1⟩ := C117_sv_returns (flSqrt_spec (binary ℝ p hp)) (by rw [hu]; norm_num) (by norm_num) hA (by
    intro E hE
    rw [hv] at hE ⊢
    have hE' : fro E ≤ 1 / 100 := by
      refine hE.trans ((mul_le_mul hd hf (fro_nonneg _) (by rw [hu]; norm_num)).trans ?_)
      rw [hu]
      norm_num
    have a : ∀ i j, |E i j| ≤ 1 / 100 := fun i j => (abs_le_fro E i j).trans hE'
    have a1 := abs_le.1 (a 0 0)
    have a2 := abs_le.1 (a 0 1)
    have a3 := abs_le.1 (a 1 0)
    have a4 := abs_le.1 (a 1 1)
    rw [Matrix.det_fin_two]
    simp only [Matrix.add_apply, Matrix.of_apply, Matrix.cons_val', Matrix.cons_val_zero, Matrix.cons_val_one, Matrix.cons_val_fin_one]
    have := abs_le.1 (show |E 0 0 * E 1 1| ≤ 1 / 100 * (1 / 100) by
      rw [abs_mul]; exact mul_le_mul (a 0 0) (a 1 1) (abs_nonneg _) (by norm_num))
    have := abs_le.1 (show |E 0 1 * E 1 0| ≤ 1 / 100 * (1 / 100) by
      rw [abs_mul]; exact mul_le_mul (a 0 1) (a 1 0) (abs_nonneg _) (by norm_num))
    refine ne_of_lt ?_
    nlinarith)
  obtain ⟨⟨u, s, v⟩, h2⟩ := Option.ne_none_iff_exists'.1 h1
  obtain ⟨U', S, V', U, V, -, a2, -, a4, a5, -, -, -, -, a10, -⟩ :=
    C117_sv_partial (flSqrt_spec (binary ℝ p hp)) (by rw [hu]; norm_num) hA h2
  rw [hv] at a10
  refine ⟨u, s, v, S, U, V, h2, a2, a4, a5, fun i => ?_⟩
  have h5 := (C117_size (R := binary ℝ p hp) (n := 2) (by norm_num) (by rw [hu]; norm_num)).1
  have h6 : |(S i i).val - (U.transpose * (!![1, 2; 3, 4] : Matrix (Fin 2) (Fin 2) ℝ) * V) i i| ≤
      √(∑ i, ((S i i).val - (U.transpose * (!![1, 2; 3, 4] : Matrix (Fin 2) (Fin 2) ℝ) * V) i i) ^ 2) :=
    Real.abs_le_sqrt (single_le_sum (f := fun i => ((S i i).val - (U.transpose * (!![1, 2; 3, 4] : Matrix (Fin 2) (Fin 2) ℝ) * V) i i) ^ 2)
      (fun _ _ => sq_nonneg _) (mem_univ i))
  refine h6.trans (a10.trans ((mul_le_mul h5 hf (fro_nonneg _) (by rw [hu]; norm_num)).trans ?_))
  rw [hu]
  norm_num

end
end Verif
