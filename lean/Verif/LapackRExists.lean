import Verif.LapackExists
import Verif.LapackReal
import Verif.CholProps
import Mathlib.Analysis.Complex.Polynomial.Basic

/-!
# Routines with the documented behaviour of the remaining part of LAPACK exist
-/

namespace Verif
namespace Lapack
open Finset Matrix

/-! ### Householder reflections -/

/-- the reflection `1 - t v vᵀ` -/
def hh {m : Nat} (t : ℝ) (v : Fin m → ℝ) : Matrix (Fin m) (Fin m) ℝ := 1 - t • vecMulVec v v

theorem hh_symm {m : Nat} (t : ℝ) (v : Fin m → ℝ) : (hh t v)ᵀ = hh t v := by
  simp [hh, transpose_sub, transpose_smul, transpose_vecMulVec]

theorem hh_apply {m : Nat} (t : ℝ) (v : Fin m → ℝ) (r j : Fin m) : hh t v r j = (if r = j then 1 else 0) - t * (v r * v j) := by
  rw [hh, Matrix.sub_apply, Matrix.smul_apply, vecMulVec_apply, Matrix.one_apply, smul_eq_mul]

theorem hh_mulVec {m : Nat} (t : ℝ) (v x : Fin m → ℝ) (r : Fin m) : (hh t v *ᵥ x) r = x r - t * v r * (v ⬝ᵥ x) := by
  rw [mulVec, dotProduct, dotProduct, mul_sum]
  simp only [hh_apply, sub_mul, sum_sub_distrib, ite_mul, one_mul, zero_mul, sum_ite_eq, mem_univ, if_true]
  congr 1
  exact sum_congr rfl fun i _ => by ring

theorem hh_mul_apply {m n : Nat} (t : ℝ) (v : Fin m → ℝ) (W : Matrix (Fin m) (Fin n) ℝ) (r : Fin m) (j : Fin n) :
    (hh t v * W) r j = W r j - t * v r * (v ⬝ᵥ fun i => W i j) := by
  exact hh_mulVec t v (fun i => W i j) r

theorem hh_orth {m : Nat} {t : ℝ} {v : Fin m → ℝ} (h : t * (t * (v ⬝ᵥ v) - 2) = 0) : hh t v * (hh t v)ᵀ = 1 := by
  rw [hh_symm]
  ext r j
  rw [hh_mul_apply]
  have e : (v ⬝ᵥ fun i => hh t v i j) = v j - t * v j * (v ⬝ᵥ v) := by
    rw [← hh_mulVec]
    conv_rhs => rw [← hh_symm]
    simp only [mulVec, dotProduct, transpose_apply]
    exact sum_congr rfl fun i _ => mul_comm _ _
  rw [e]
  rw [hh_apply, Matrix.one_apply]
  linear_combination v r * v j * h

/-- a Householder reflection that annihilates the part of a vector below position `s` -/
theorem householder {m : Nat} (x : Fin m → ℝ) (s : Fin m) : ∃ (v : Fin m → ℝ) (t : ℝ), (∀ r, r < s → v r = 0) ∧ v s = 1 ∧
    hh t v * (hh t v)ᵀ = 1 ∧ ∀ r, s < r → (hh t v *ᵥ x) r = 0 := by
  classical
  set σ : ℝ := ∑ r ∈ univ.filter (fun r => s < r), x r ^ 2 with hσ
  have hσ0 : 0 ≤ σ := sum_nonneg fun _ _ => sq_nonneg _
  rcases hσ0.eq_or_lt with h0 | h0
  · refine ⟨fun r => if r = s then 1 else 0, 0, fun r hr => if_neg hr.ne, if_pos rfl, hh_orth (by simp), fun r hr => ?_⟩
    rw [hh_mulVec, zero_mul, zero_mul, sub_zero]
    have := (sum_eq_zero_iff_of_nonneg (fun _ _ => sq_nonneg _)).1 h0.symm r (by simp [hr])
    exact pow_eq_zero_iff (by norm_num) |>.1 this
  · set α := x s with hα
    set β := Real.sqrt (α ^ 2 + σ) with hβ
    have hβ2 : β ^ 2 = α ^ 2 + σ := Real.sq_sqrt (by positivity)
    have hβ0 : 0 < β := Real.sqrt_pos.2 (by positivity)
    have hne : α - β ≠ 0 := by
      intro h
      have : α = β := by linarith
      rw [this] at hβ2
      linarith
    set v : Fin m → ℝ := fun r => if s < r then x r / (α - β) else if r = s then 1 else 0 with hv
    have hsplit : ∀ g : Fin m → ℝ, (∀ r, r < s → g r = 0) →
        ∑ r, g r = g s + ∑ r ∈ univ.filter (fun r => s < r), g r := by
      intro g hg
      rw [← sum_filter_add_sum_filter_not univ (fun r => s < r) g, add_comm]
      congr 1
      rw [sum_eq_single s]
      · intro r hr hrs
        rw [mem_filter] at hr
        exact hg r (lt_of_le_of_ne (not_lt.1 hr.2) hrs)
      · simp
    have hvv : v ⬝ᵥ v = 1 + σ / (α - β) ^ 2 := by
      rw [dotProduct, hsplit _ (fun r hr => by simp only [hv, if_neg (not_lt.2 hr.le), if_neg hr.ne, mul_zero])]
      simp only [hv, lt_irrefl, if_false, if_true, one_mul]
      rw [hσ, sum_div]
      congr 1
      refine sum_congr rfl fun r hr => ?_
      rw [mem_filter] at hr
      rw [if_pos hr.2]
      field_simp
    have hvx : v ⬝ᵥ x = α + σ / (α - β) := by
      rw [dotProduct, hsplit _ (fun r hr => by simp only [hv, if_neg (not_lt.2 hr.le), if_neg hr.ne, zero_mul])]
      simp only [hv, lt_irrefl, if_false, if_true, one_mul]
      rw [hσ, sum_div]
      congr 1
      refine sum_congr rfl fun r hr => ?_
      rw [mem_filter] at hr
      rw [if_pos hr.2]
      field_simp
    refine ⟨v, (β - α) / β, fun r hr => by simp only [hv, if_neg (not_lt.2 hr.le), if_neg hr.ne], by simp [hv],
      hh_orth ?_, fun r hr => ?_⟩
    · rw [hvv]
      have hβ' : β ≠ 0 := hβ0.ne'
      have : (β - α) / β * (1 + σ / (α - β) ^ 2) - 2 = 0 := by
        field_simp
        have : σ = β ^ 2 - α ^ 2 := by linarith
        rw [this]
        ring
      rw [this, mul_zero]
    · rw [hh_mulVec, hvx]
      simp only [hv, if_pos hr]
      have hβ' : β ≠ 0 := hβ0.ne'
      have : σ = β ^ 2 - α ^ 2 := by linarith
      rw [this]
      field_simp
      ring

/-- the product of reflections -/
def hhProd {m : Nat} (T : Nat → ℝ) (V : Nat → Fin m → ℝ) (k : Nat) : Matrix (Fin m) (Fin m) ℝ :=
  ((List.range k).map fun i => hh (T i) (V i)).prod

theorem hhProd_succ {m : Nat} (T : Nat → ℝ) (V : Nat → Fin m → ℝ) (k : Nat) :
    hhProd T V (k + 1) = hhProd T V k * hh (T k) (V k) := by
  simp [hhProd, List.range_succ]

theorem hhProd_update {m : Nat} (T : Nat → ℝ) (V : Nat → Fin m → ℝ) (k : Nat) (t : ℝ) (v : Fin m → ℝ) :
    hhProd (Function.update T k t) (Function.update V k v) k = hhProd T V k := by
  unfold hhProd
  congr 1
  refine List.map_congr_left fun i hi => ?_
  rw [List.mem_range] at hi
  rw [Function.update_of_ne (by omega), Function.update_of_ne (by omega)]

/-- the QR factorisation by reflections -/
theorem qr_steps {m n : Nat} (A : Matrix (Fin m) (Fin n) ℝ) (k : Nat) (hk : k ≤ min m n) :
    ∃ (T : Nat → ℝ) (V : Nat → Fin m → ℝ), (∀ i < k, ∀ r : Fin m, ((r : ℕ) < i → V i r = 0) ∧ ((r : ℕ) = i → V i r = 1)) ∧
      hhProd T V k * (hhProd T V k)ᵀ = 1 ∧
      ∀ (r : Fin m) (j : Fin n), (j : ℕ) < k → (j : ℕ) < r → ((hhProd T V k)ᵀ * A) r j = 0 := by
  induction k with
  | zero => exact ⟨fun _ => 0, fun _ _ => 0, fun i hi => by omega, by simp [hhProd], fun r j hj => by omega⟩
  | succ k ih =>
    obtain ⟨T, V, h1, h2, h3⟩ := ih (by omega)
    obtain ⟨v, t, a1, a2, a3, a4⟩ := householder (fun r => ((hhProd T V k)ᵀ * A) r ⟨k, by omega⟩) ⟨k, by omega⟩
    refine ⟨Function.update T k t, Function.update V k v, fun i hi r => ?_, ?_, fun r j hj hr => ?_⟩
    · by_cases e : i = k
      · subst e
        rw [Function.update_self]
        refine ⟨fun h => a1 r (by rw [Fin.lt_def]; exact h), fun h => ?_⟩
        rw [show r = ⟨i, by omega⟩ from Fin.ext h, a2]
      · rw [Function.update_of_ne e]
        exact h1 i (by omega) r
    · rw [hhProd_succ, hhProd_update, Function.update_self, Function.update_self, transpose_mul, Matrix.mul_assoc,
        ← Matrix.mul_assoc (hh t v), a3, Matrix.one_mul, h2]
    · rw [hhProd_succ, hhProd_update, Function.update_self, Function.update_self, transpose_mul, hh_symm, Matrix.mul_assoc]
      by_cases e : (j : ℕ) = k
      · have hj' : j = ⟨k, by omega⟩ := Fin.ext e
        rw [hj']
        exact a4 r (by rw [Fin.lt_def]; exact (show k < r by omega))
      · rw [hh_mul_apply, h3 r j (by omega) hr]
        have : (v ⬝ᵥ fun i => ((hhProd T V k)ᵀ * A) i j) = 0 := by
          refine sum_eq_zero fun i _ => ?_
          by_cases hi : (i : ℕ) < k
          · rw [a1 i (by rw [Fin.lt_def]; exact hi), zero_mul]
          · exact mul_eq_zero_of_right _ (h3 i j (by omega) (by omega))
        rw [this]
        ring

/-- the Hessenberg reduction by reflections -/
theorem hes_steps {n : Nat} (A : Matrix (Fin n) (Fin n) ℝ) (k : Nat) (hk : k ≤ n - 1) :
    ∃ (T : Nat → ℝ) (V : Nat → Fin n → ℝ),
      (∀ i < k, ∀ r : Fin n, ((r : ℕ) < i + 1 → V i r = 0) ∧ ((r : ℕ) = i + 1 → V i r = 1)) ∧
      hhProd T V k * (hhProd T V k)ᵀ = 1 ∧
      ∀ (r j : Fin n), (j : ℕ) < k → (j : ℕ) + 1 < r → ((hhProd T V k)ᵀ * A * hhProd T V k) r j = 0 := by
  induction k with
  | zero => exact ⟨fun _ => 0, fun _ _ => 0, fun i hi => by omega, by simp [hhProd], fun r j hj => by omega⟩
  | succ k ih =>
    obtain ⟨T, V, h1, h2, h3⟩ := ih (by omega)
    obtain ⟨v, t, a1, a2, a3, a4⟩ := householder (fun r => ((hhProd T V k)ᵀ * A * hhProd T V k) r ⟨k, by omega⟩)
      ⟨k + 1, by omega⟩
    refine ⟨Function.update T k t, Function.update V k v, fun i hi r => ?_, ?_, fun r j hj hr => ?_⟩
    · by_cases e : i = k
      · subst e
        rw [Function.update_self]
        refine ⟨fun h => a1 r (by rw [Fin.lt_def]; exact h), fun h => ?_⟩
        rw [show r = ⟨i + 1, by omega⟩ from Fin.ext h, a2]
      · rw [Function.update_of_ne e]
        exact h1 i (by omega) r
    · rw [hhProd_succ, hhProd_update, Function.update_self, Function.update_self, transpose_mul, Matrix.mul_assoc,
        ← Matrix.mul_assoc (hh t v), a3, Matrix.one_mul, h2]
    · rw [hhProd_succ, hhProd_update, Function.update_self, Function.update_self, transpose_mul, hh_symm]
      set W := (hhProd T V k)ᵀ * A * hhProd T V k with hW
      have e0 : hh t v * (hhProd T V k)ᵀ * A * (hhProd T V k * hh t v) = hh t v * W * hh t v := by
        simp only [hW, Matrix.mul_assoc]
      have e1 : (hh t v * W * hh t v) r j = (hh t v * W) r j := by
        rw [mul_apply, sum_eq_single j]
        · rw [hh_apply, if_pos rfl, a1 j (by rw [Fin.lt_def]; exact (show (j : ℕ) < k + 1 by omega))]
          ring
        · intro l _ hl
          rw [hh_apply, if_neg hl, a1 j (by rw [Fin.lt_def]; exact (show (j : ℕ) < k + 1 by omega))]
          ring
        · simp
      rw [e0, e1]
      by_cases e : (j : ℕ) = k
      · have hj' : j = ⟨k, by omega⟩ := Fin.ext e
        rw [hj']
        exact a4 r (by rw [Fin.lt_def]; exact (show k + 1 < r by omega))
      · rw [hh_mul_apply, h3 r j (by omega) hr]
        have : (v ⬝ᵥ fun i => W i j) = 0 := by
          refine sum_eq_zero fun i _ => ?_
          by_cases hi : (i : ℕ) < k + 1
          · rw [a1 i (by rw [Fin.lt_def]; exact hi), zero_mul]
          · exact mul_eq_zero_of_right _ (h3 i j (by omega) (by omega))
        rw [this]
        ring

/-- the stored reflections are the given ones -/
theorem prodOf_eq {m s k : Nat} {f : List ℝ} {lda : Nat} {T : Nat → ℝ} {V : Nat → Fin m → ℝ}
    (h1 : ∀ i < k, ∀ r : Fin m, ((r : ℕ) < i + s → V i r = 0) ∧ ((r : ℕ) = i + s → V i r = 1))
    (h2 : ∀ i < k, ∀ r : Fin m, i + s < r → el f lda r i = V i r) :
    prodOf m s k f lda ((List.range k).map T) = hhProd T V k := by
  unfold prodOf hhProd
  congr 1
  refine List.map_congr_left fun i hi => ?_
  rw [List.mem_range] at hi
  have hv : (fun r : Fin m => if (r : ℕ) < i + s then 0 else if (r : ℕ) = i + s then 1 else el f lda r i) = V i := by
    funext r
    by_cases e1 : (r : ℕ) < i + s
    · rw [if_pos e1, (h1 i hi r).1 e1]
    · rw [if_neg e1]
      by_cases e2 : (r : ℕ) = i + s
      · rw [if_pos e2, (h1 i hi r).2 e2]
      · rw [if_neg e2, h2 i hi r (by omega)]
  have ht : ((List.range k).map T).getD i 0 = T i := by
    rw [getD_lt _ _ (by simp [hi])]
    simp
  simp only [reflOf, hv, ht, hh]

theorem geqrf_exists (m n : Nat) (a : List ℝ) (lda : Nat) (h1 : max 1 m ≤ lda) (h2 : lda * n ≤ a.length) :
    ∃ r : List ℝ × List ℝ × ℤ, ∃ f tau, r = (f, tau, 0) ∧ f.length = a.length ∧ tau.length = min m n ∧
    prodOf m 0 (min m n) f lda tau * (prodOf m 0 (min m n) f lda tau).transpose = 1 ∧
    matOf m n a lda = prodOf m 0 (min m n) f lda tau * upOf m n 0 f lda := by
  obtain ⟨T, V, v1, v2, v3⟩ := qr_steps (matOf m n a lda) (min m n) le_rfl
  set W := (hhProd T V (min m n))ᵀ * matOf m n a lda with hW
  set f := fill a lda m n (fun i j => if i ≤ j then extM W i j else if h : i < m then V j ⟨i, h⟩ else 0) with hf
  have hel : ∀ i < m, ∀ j < n, el f lda i j = if i ≤ j then extM W i j else if h : i < m then V j ⟨i, h⟩ else 0 :=
    fun i hi j hj => fill_el _ (by omega) h2 hi hj
  have hp : prodOf m 0 (min m n) f lda ((List.range (min m n)).map T) = hhProd T V (min m n) :=
    prodOf_eq (by simpa using v1) fun i hi r hr => by
      rw [hel r r.2 i (by omega), if_neg (by omega), dif_pos r.2]
  have hu : upOf m n 0 f lda = W := by
    ext i j
    simp only [upOf, add_zero]
    by_cases h : (i : ℕ) ≤ j
    · rw [if_pos h, hel i i.2 j j.2, if_pos h, extM_apply]
    · rw [if_neg h, v3 i j (by omega) (by omega)]
  refine ⟨_, f, (List.range (min m n)).map T, rfl, fill_length .., by simp, by rw [hp, v2], ?_⟩
  rw [hp, hu, hW, ← Matrix.mul_assoc, v2, Matrix.one_mul]

theorem gehrd_exists (n : Nat) (a : List ℝ) (lda : Nat) (h1 : max 1 n ≤ lda) (h2 : lda * n ≤ a.length) :
    ∃ r : List ℝ × List ℝ × ℤ, ∃ f tau, r = (f, tau, 0) ∧ f.length = a.length ∧ tau.length = n - 1 ∧
    prodOf n 1 (n - 1) f lda tau * (prodOf n 1 (n - 1) f lda tau).transpose = 1 ∧
    matOf n n a lda = prodOf n 1 (n - 1) f lda tau * upOf n n 1 f lda *
      (prodOf n 1 (n - 1) f lda tau).transpose := by
  obtain ⟨T, V, v1, v2, v3⟩ := hes_steps (matOf n n a lda) (n - 1) le_rfl
  set Q := hhProd T V (n - 1) with hQ
  set W := Qᵀ * matOf n n a lda * Q with hW
  set f := fill a lda n n (fun i j => if i ≤ j + 1 then extM W i j else if h : i < n then V j ⟨i, h⟩ else 0) with hf
  have hel : ∀ i < n, ∀ j < n, el f lda i j = if i ≤ j + 1 then extM W i j else if h : i < n then V j ⟨i, h⟩ else 0 :=
    fun i hi j hj => fill_el _ (by omega) h2 hi hj
  have hp : prodOf n 1 (n - 1) f lda ((List.range (n - 1)).map T) = Q :=
    prodOf_eq v1 fun i hi r hr => by
      rw [hel r r.2 i (by omega), if_neg (by omega), dif_pos r.2]
  have hu : upOf n n 1 f lda = W := by
    ext i j
    simp only [upOf]
    by_cases h : (i : ℕ) ≤ j + 1
    · rw [if_pos h, hel i i.2 j j.2, if_pos h, extM_apply]
    · rw [if_neg h, v3 i j (by omega) (by omega)]
  refine ⟨_, f, (List.range (n - 1)).map T, rfl, fill_length .., by simp, by rw [hp, v2], ?_⟩
  rw [hp, hu, hW]
  have : Q * (Qᵀ * matOf n n a lda * Q) * Qᵀ = (Q * Qᵀ) * matOf n n a lda * (Q * Qᵀ) := by
    simp only [Matrix.mul_assoc]
  rw [this, v2, Matrix.one_mul, Matrix.mul_one]

/-! ### Cholesky -/

/-- the lower triangle belongs to a positive definite matrix -/
def isPD (n : Nat) (a : List ℝ) (lda : Nat) : Prop :=
  ∀ x : Fin n → ℝ, x ≠ 0 → 0 < ∑ i : Fin n, ∑ j : Fin n, x i * el a lda (max i j) (min i j) * x j

theorem potrf_exists (n : Nat) (a : List ℝ) (lda : Nat) (h1 : max 1 n ≤ lda) (h2 : lda * n ≤ a.length) :
    ∃ r : List ℝ × ℤ, ∃ l info, r = (l, info) ∧ l.length = a.length ∧ 0 ≤ info ∧
    (info = 0 ↔ ∀ x : Fin n → ℝ, x ≠ 0 → 0 < ∑ i : Fin n, ∑ j : Fin n, x i * el a lda (max i j) (min i j) * x j) ∧
    (info = 0 → (∀ i < n, 0 < el l lda i i) ∧ ∀ i < n, ∀ j ≤ i,
      ∑ k ∈ Finset.range (j + 1), el l lda i k * el l lda j k = el a lda i j) := by
  by_cases hpd : isPD n a lda
  · set S : Matrix (Fin n) (Fin n) ℝ := fun i j => el a lda (max i j) (min i j) with hS
    have hsym : Sᵀ = S := by
      ext i j
      rw [transpose_apply]
      exact congrArg₂ (el a lda) (max_comm _ _) (min_comm _ _)
    have hM : Repr (⟨n, n, fill (List.replicate (n * n) 0) n n n (extM S)⟩ : Mat ℝ) S :=
      (is_of_el (by simp [fill_length]) fun i hi j hj => fill_el (extM S) le_rfl (by simp) hi hj).repr_of
        fun i j => extM_apply S i j
    obtain ⟨_, L, _, _, l1, l2, l3⟩ := C16_cholesky_pd hM hsym (fun x hx => by
      refine lt_of_lt_of_eq (hpd x hx) ?_
      simp only [dotProduct, mulVec, mul_sum, hS]
      exact sum_congr rfl fun i _ => sum_congr rfl fun j _ => by ring)
    have hel : ∀ i < n, ∀ j < n, el (fill a lda n n (extM L)) lda i j = extM L i j := fun i hi j hj =>
      fill_el _ (by omega) h2 hi hj
    refine ⟨_, fill a lda n n (extM L), 0, rfl, fill_length .., le_rfl, ⟨fun _ => hpd, fun _ => rfl⟩, fun _ =>
      ⟨fun i hi => ?_, fun i hi j hj => ?_⟩⟩
    · rw [hel i hi i hi, extM_lt L hi hi]
      exact l2 _
    · have := congrFun (congrFun l3 ⟨i, hi⟩) ⟨j, by omega⟩
      rw [mul_apply] at this
      simp only [hS, transpose_apply] at this
      rw [max_eq_left hj, min_eq_right hj] at this
      rw [← this]
      have e : ∀ k : Fin n, L ⟨i, hi⟩ k * L ⟨j, by omega⟩ k = extM L i k * extM L j k := fun k => by
        rw [extM_lt L hi k.2, extM_lt L (show j < n by omega) k.2]
      rw [sum_congr rfl fun k _ => e k, Fin.sum_univ_eq_sum_range (fun k => extM L i k * extM L j k), range_eq_Ico,
        range_eq_Ico, ← sum_Ico_consecutive _ (Nat.zero_le (j + 1)) (show j + 1 ≤ n by omega),
        sum_eq_zero (s := Ico (j + 1) n), add_zero]
      · refine sum_congr rfl fun k hk => ?_
        rw [mem_Ico] at hk
        rw [hel i hi k (by omega), hel j (by omega) k (by omega)]
      · intro k hk
        rw [mem_Ico] at hk
        rw [extM_lt L (show j < n by omega) (show k < n by omega), l1 _ _ (by rw [Fin.lt_def]; exact (by omega : j < k)),
          mul_zero]
  · exact ⟨_, a, 1, rfl, rfl, by omega, ⟨fun h => by omega, fun h => absurd h hpd⟩, fun h => by omega⟩

/-! ### eigenvalues -/

theorem geev_exists (n : Nat) (a : List ℝ) (lda ldvl ldvr : Nat) (h4 : n ≤ ldvr) :
    ∃ r : List ℝ × List ℝ × List ℝ × ℤ, ∃ wr wi vr info, r = (wr, wi, vr, info) ∧
      wr.length = n ∧ wi.length = n ∧ vr.length = ldvr * n ∧ 0 ≤ info ∧ (info = 0 →
      ((matOf n n a lda).map ((↑) : ℝ → ℂ)).charpoly =
        ∏ j : Fin n, (Polynomial.X - Polynomial.C (⟨wr.getD j 0, wi.getD j 0⟩ : ℂ)) ∧
      ∀ j : Fin n, wi.getD j 0 = 0 → (∃ i : Fin n, el vr ldvr i j ≠ 0) ∧
        (matOf n n a lda).mulVec (fun i : Fin n => el vr ldvr i j) =
          fun i : Fin n => wr.getD j 0 * el vr ldvr i j) := by
  classical
  set A := matOf n n a lda with hA
  set p := (A.map ((↑) : ℝ → ℂ)).charpoly with hp
  have hsp : p.Splits := IsAlgClosed.splits p
  have hmon : p.Monic := charpoly_monic _
  set l := p.roots.toList with hl
  have hlen : l.length = n := by
    rw [hl, Multiset.length_toList, ← hsp.natDegree_eq_card_roots, hp, charpoly_natDegree_eq_dim, Fintype.card_fin]
  have hprod : p = ∏ j : Fin n, (Polynomial.X - Polynomial.C (l.getD j 0)) := by
    have e1 := hsp.eq_prod_roots_of_monic hmon
    have e2 : (p.roots.map fun z => Polynomial.X - Polynomial.C z).prod =
        (l.map fun z => Polynomial.X - Polynomial.C z).prod := by
      rw [← Multiset.prod_coe, ← Multiset.map_coe, hl, Multiset.coe_toList]
    have e3 : l = List.ofFn fun j : Fin n => l.getD j 0 := by
      apply List.ext_getElem
      · simp [hlen]
      · intro i h1 h2
        rw [List.getElem_ofFn, getD_lt _ _ h1]
    refine e1.trans (e2.trans ?_)
    conv_lhs => rw [e3]
    rw [List.map_ofFn, List.prod_ofFn]
    rfl
  have hre : ∀ j : Fin n, ((l.map Complex.re).getD j 0) = (l.getD j 0).re := fun j => by
    rw [getD_lt _ _ (by simp [hlen]), getD_lt _ _ (by simp [hlen])]
    simp
  have him : ∀ j : Fin n, ((l.map Complex.im).getD j 0) = (l.getD j 0).im := fun j => by
    rw [getD_lt _ _ (by simp [hlen]), getD_lt _ _ (by simp [hlen])]
    simp
  have hvec : ∀ j : Fin n, ∃ v : Fin n → ℝ, (l.getD j 0).im = 0 → v ≠ 0 ∧ A *ᵥ v = (l.getD j 0).re • v := by
    intro j
    by_cases hj : (l.getD j 0).im = 0
    · have hz : p.eval (l.getD j 0) = 0 := by
        rw [hprod, Polynomial.eval_prod]
        exact prod_eq_zero (mem_univ j) (by simp)
      have hz' : A.charpoly.eval (l.getD j 0).re = 0 := by
        have e : l.getD j 0 = Complex.ofRealHom (l.getD j 0).re := Complex.ext rfl hj
        rw [hp, charpoly_real n A, e, Polynomial.eval_map_apply] at hz
        simpa using hz
      rw [eval_charpoly] at hz'
      obtain ⟨v, hv, hz'⟩ := exists_mulVec_eq_zero_iff.2 hz'
      refine ⟨v, fun _ => ⟨hv, ?_⟩⟩
      rw [sub_mulVec, sub_eq_zero] at hz'
      rw [← hz']
      ext i
      simp [scalar_apply, mulVec_diagonal]
    · exact ⟨0, fun h => absurd h hj⟩
  choose V hV using hvec
  set g : Nat → Nat → ℝ := fun i j => if h : i < n ∧ j < n then V ⟨j, h.2⟩ ⟨i, h.1⟩ else 0 with hg
  have hel : ∀ i j : Fin n, el (fill (List.replicate (ldvr * n) 0) ldvr n n g) ldvr i j = V j i := fun i j => by
    rw [fill_el g h4 (by simp) i.2 j.2]
    simp only [hg]
    rw [dif_pos ⟨i.2, j.2⟩]
  refine ⟨_, l.map Complex.re, l.map Complex.im, fill (List.replicate (ldvr * n) 0) ldvr n n g, 0, rfl, by simp [hlen],
    by simp [hlen], by simp [fill_length], le_rfl, fun _ => ⟨?_, fun j hj => ?_⟩⟩
  · rw [hprod]
    refine prod_congr rfl fun j _ => ?_
    rw [hre, him]
  · rw [him] at hj
    obtain ⟨c1, c2⟩ := hV j hj
    simp only [hel, hre]
    refine ⟨?_, c2⟩
    obtain ⟨i, hi⟩ := Function.ne_iff.1 c1
    exact ⟨i, hi⟩

/-- LAPACK routines with the documented behaviour -/
noncomputable def lapackR : LapackR where
  potrf n a lda :=
    haveI := Classical.propDecidable
    if h : max 1 n ≤ lda ∧ lda * n ≤ a.length then (potrf_exists n a lda h.1 h.2).choose else (a, -4)
  geqrf m n a lda :=
    haveI := Classical.propDecidable
    if h : max 1 m ≤ lda ∧ lda * n ≤ a.length then (geqrf_exists m n a lda h.1 h.2).choose else (a, [], -4)
  orgqr m n k a lda tau := (fill a lda m n (extM (prodOf m 0 k a lda tau)), 0)
  gehrd n a lda :=
    haveI := Classical.propDecidable
    if h : max 1 n ≤ lda ∧ lda * n ≤ a.length then (gehrd_exists n a lda h.1 h.2).choose else (a, [], -5)
  orghr n a lda tau := (fill a lda n n (extM (prodOf n 1 (n - 1) a lda tau)), 0)
  geev n a lda ldvl ldvr :=
    if h : n ≤ ldvr then (geev_exists n a lda ldvl ldvr h).choose else ([], [], [], -11)
  potrf_arg n a lda h := by rw [dif_neg (by omega)]
  potrf_doc n a lda h1 h2 := by
    rw [dif_pos ⟨h1, h2⟩]
    exact (potrf_exists n a lda h1 h2).choose_spec
  geqrf_doc m n a lda h1 h2 := by
    rw [dif_pos ⟨h1, h2⟩]
    exact (geqrf_exists m n a lda h1 h2).choose_spec
  orgqr_doc m n k a lda tau h1 h2 h3 h4 h5 := ⟨_, rfl, fill_length .., fun i j hj => by
    rw [fill_el _ (by omega) h4 i.2 hj, extM_apply]⟩
  gehrd_doc n a lda h1 h2 := by
    rw [dif_pos ⟨h1, h2⟩]
    exact (gehrd_exists n a lda h1 h2).choose_spec
  orghr_doc n a lda tau h1 h2 h3 := ⟨_, rfl, fill_length .., fun i j => by
    rw [fill_el _ (by omega) h2 i.2 j.2, extM_apply]⟩
  geev_doc n a lda ldvl ldvr h1 h2 h3 h4 := by
    rw [dif_pos h3]
    exact (geev_exists n a lda ldvl ldvr h3).choose_spec

end Lapack
end Verif
