import Verif.SvdProps
import Mathlib.LinearAlgebra.Matrix.Charpoly.Basic
import Mathlib.Topology.Instances.Matrix
import Mathlib.Topology.Algebra.Polynomial
import Mathlib.Algebra.Polynomial.Roots

/-!
# C77: convergence of the sweeps of `dec_sv`
-/

namespace Verif
open Finset Matrix

/-! ### Rotations of functions of two indices -/

section
variable {K : Type} [Field K] [LinearOrder K] [IsStrictOrderedRing K] {sqrt : K → K}

/-- columns `k`, `k + 1` are rotated -/
def rotR (c s : K) (k : ℕ) (f : ℕ → ℕ → K) : ℕ → ℕ → K := fun i j =>
  if j = k then c * f i k + s * f i (k + 1) else if j = k + 1 then -s * f i k + c * f i (k + 1) else f i j

/-- rows `k`, `k + 1` are rotated -/
def rotL (c s : K) (k : ℕ) (f : ℕ → ℕ → K) : ℕ → ℕ → K := fun i j =>
  if i = k then c * f k j + s * f (k + 1) j else if i = k + 1 then -s * f k j + c * f (k + 1) j else f i j

/-- a step of a sweep -/
def swF (sqrt : K → K) (k : ℕ) (f : ℕ → ℕ → K) : ℕ → ℕ → K :=
  let r := Mat.rot sqrt (f k k) (f k (k + 1))
  let g := rotR r.1 r.2.1 k f
  let r' := Mat.rot sqrt (g k k) (g (k + 1) k)
  rotL r'.1 r'.2.1 k g

theorem rot_zero (hs : IsSqrt sqrt) (f g : K) : (Mat.rot sqrt f g).1 * g = (Mat.rot sqrt f g).2.1 * f := by
  unfold Mat.rot
  have key : ∀ t : K, sqrt (1 + t * t) ≠ 0 := by
    intro t
    have h0 : 0 < 1 + t * t := by have := mul_self_nonneg t; linarith
    obtain ⟨-, h2⟩ := hs _ h0.le
    exact fun h => by rw [h] at h2; linarith
  split
  · rename_i h; simp [h]
  · rename_i hf
    split
    · have h1 := key (g / f)
      simp only
      field_simp
    · rename_i hfg
      have hg : g ≠ 0 := by
        rintro rfl
        apply hfg
        show |f| > |0|
        simpa using hf
      have h1 := key (f / g)
      simp only
      field_simp

theorem rot_c_ne (hs : IsSqrt sqrt) {f : K} (hf : f ≠ 0) (g : K) : (Mat.rot sqrt f g).1 ≠ 0 := by
  unfold Mat.rot
  have key : ∀ t : K, sqrt (1 + t * t) ≠ 0 := by
    intro t
    have h0 : 0 < 1 + t * t := by have := mul_self_nonneg t; linarith
    obtain ⟨-, h2⟩ := hs _ h0.le
    exact fun h => by rw [h] at h2; linarith
  rw [if_neg hf]
  split
  · exact one_div_ne_zero (key _)
  · rename_i hfg
    have hg : g ≠ 0 := by
      rintro rfl
      apply hfg
      show |f| > |0|
      simpa using hf
    exact div_ne_zero (div_ne_zero hf hg) (key _)

theorem rot_spec (hs : IsSqrt sqrt) {f : K} (hf : f ≠ 0) (g : K) : ∃ c s t, Mat.rot sqrt f g = (c, s, t) ∧ c * c + s * s = 1 ∧
    c * g = s * f ∧ c ≠ 0 :=
  ⟨_, _, _, rfl, rot_unit hs f g, rot_zero hs f g, rot_c_ne hs hf g⟩

theorem extM_mulGivens {n k : ℕ} (hk : k + 1 < n) (c s : K) (B : Matrix (Fin n) (Fin n) K) :
    extM (B * (givensM (⟨k, by omega⟩ : Fin n) ⟨k + 1, hk⟩ c s).transpose) = rotR c s k (extM B) := by
  have hk0 : k < n := by omega
  have hne : (⟨k, hk0⟩ : Fin n) ≠ ⟨k + 1, hk⟩ := by simp [Fin.ext_iff]
  funext i j
  by_cases hi : i < n
  · by_cases hj : j < n
    · rw [extM_lt _ hi hj]
      have : (B * (givensM (⟨k, hk0⟩ : Fin n) ⟨k + 1, hk⟩ c s).transpose) =
          (givensM (⟨k, hk0⟩ : Fin n) ⟨k + 1, hk⟩ c s * B.transpose).transpose := by
        rw [Matrix.transpose_mul, Matrix.transpose_transpose]
      rw [this, Matrix.transpose_apply, givensM_mul]
      unfold rotR
      simp only [Fin.ext_iff, Matrix.transpose_apply]
      rw [extM_lt B hi hk0, extM_lt B hi hk, extM_lt B hi hj]
    · unfold rotR extM
      rw [dif_neg (by omega), if_neg (by omega), if_neg (by omega), dif_neg (by omega)]
  · unfold rotR extM
    rw [dif_neg (by omega), dif_neg (by omega), dif_neg (by omega), dif_neg (by omega)]
    simp

theorem extM_givensMul {n k : ℕ} (hk : k + 1 < n) (c s : K) (B : Matrix (Fin n) (Fin n) K) :
    extM (givensM (⟨k, by omega⟩ : Fin n) ⟨k + 1, hk⟩ c s * B) = rotL c s k (extM B) := by
  have hk0 : k < n := by omega
  have hne : (⟨k, hk0⟩ : Fin n) ≠ ⟨k + 1, hk⟩ := by simp [Fin.ext_iff]
  funext i j
  by_cases hj : j < n
  · by_cases hi : i < n
    · rw [extM_lt _ hi hj, givensM_mul]
      unfold rotL
      simp only [Fin.ext_iff]
      rw [extM_lt B hk0 hj, extM_lt B hk hj, extM_lt B hi hj]
    · unfold rotL extM
      rw [dif_neg (by omega), if_neg (by omega), if_neg (by omega), dif_neg (by omega)]
  · unfold rotL extM
    rw [dif_neg (by omega), dif_neg (by omega), dif_neg (by omega), dif_neg (by omega)]
    simp

/-- the state of the sweeps, with the entries of the middle matrix -/
def SwSt {n : Nat} (X : Matrix (Fin n) (Fin n) K) (f : ℕ → ℕ → K) (st : Mat K × Mat K × Mat K) : Prop :=
  ∃ U B V : Matrix (Fin n) (Fin n) K, Repr st.1 U ∧ Repr st.2.1 B ∧ Repr st.2.2 V ∧
    U * U.transpose = 1 ∧ V * V.transpose = 1 ∧ U.transpose * B * V.transpose = X ∧ extM B = f

theorem msweepStep_full (hs : IsSqrt sqrt) {n k : Nat} (hk : k + 1 < n) {X : Matrix (Fin n) (Fin n) K} {f : ℕ → ℕ → K}
    {st : Mat K × Mat K × Mat K} (h : SwSt X f st) :
    ∃ st', Mat.msweepStep sqrt n st k = some st' ∧ SwSt X (swF sqrt k f) st' := by
  obtain ⟨U, B, V, hU, hB, hV, oU, oV, hX, rfl⟩ := h
  have hk0 : k < n := by omega
  unfold Mat.msweepStep
  simp only [Option.bind_eq_bind]
  rw [hB.is.get hk0 hk0, Option.bind_some, hB.is.get hk0 hk, Option.bind_some]
  unfold swF
  generalize hr : Mat.rot sqrt (extM B k k) (extM B k (k + 1)) = r
  have ur := rot_unit hs (extM B k k) (extM B k (k + 1))
  rw [hr] at ur
  obtain ⟨q, q1, q2⟩ := putRot_is hk (Mat.one_is (K := K) n) (fun a b _ _ _ => rfl) r.1 r.2.1
  rw [q1, Option.bind_some]
  obtain ⟨qt, t1, t2⟩ := Mat.transpose_is q2.is (Or.inl rfl) (Or.inl (by omega))
  have hne : (⟨k, hk0⟩ : Fin n) ≠ ⟨k + 1, hk⟩ := by simp [Fin.ext_iff]
  have eR := extM_mulGivens hk r.1 r.2.1 B
  set G := givensM (⟨k, hk0⟩ : Fin n) ⟨k + 1, hk⟩ r.1 r.2.1 with hG
  have t3 : Repr qt G.transpose := t2.repr_of fun a b => extM_apply _ b a
  have oG : G.transpose * G = 1 := givensM_orth hne ur
  obtain ⟨b1, b2, b3⟩ := repr_mul hB t3
  obtain ⟨v1, v2, v3⟩ := repr_mul hV t3
  rw [t1, Option.bind_some, b2, Option.bind_some, v2, Option.bind_some]
  rw [b3.is.get hk0 hk0, Option.bind_some, b3.is.get hk hk0, Option.bind_some]
  simp only [← eR]
  generalize hr' : Mat.rot sqrt (extM (B * G.transpose) k k) (extM (B * G.transpose) (k + 1) k) = r'
  have ur' := rot_unit hs (extM (B * G.transpose) k k) (extM (B * G.transpose) (k + 1) k)
  rw [hr'] at ur'
  obtain ⟨p, p1, p2⟩ := putRot_is hk q2.is (by
    intro a b ha hb hab
    rw [extM_lt _ ha hb, hG]
    simp only [givensM, Matrix.of_apply, Fin.ext_iff]
    by_cases e1 : a = k
    · rw [if_pos e1, if_neg (by omega), if_neg (by omega), if_neg (by omega), add_zero]
    · by_cases e2 : a = k + 1
      · rw [if_neg e1, if_pos e2, if_neg (by omega), if_neg (by omega), if_neg (by omega), add_zero]
      · rw [if_neg e1, if_neg e2]
        simp only [eq_comm]) r'.1 r'.2.1
  have eL := extM_givensMul hk r'.1 r'.2.1 (B * G.transpose)
  set G' := givensM (⟨k, hk0⟩ : Fin n) ⟨k + 1, hk⟩ r'.1 r'.2.1 with hG'
  have oG' : G'.transpose * G' = 1 := givensM_orth hne ur'
  obtain ⟨c1, c2, c3⟩ := repr_mul p2 b3
  obtain ⟨u1, u2, u3⟩ := repr_mul p2 hU
  rw [p1, Option.bind_some, c2, Option.bind_some, u2, Option.bind_some]
  refine ⟨_, rfl, _, _, _, u3, c3, v3, ?_, ?_, ?_, eL⟩
  · rw [Matrix.transpose_mul, Matrix.mul_assoc, ← Matrix.mul_assoc U, oU, Matrix.one_mul]
    exact givensM_orth' hne ur'
  · rw [Matrix.transpose_mul, Matrix.transpose_transpose, Matrix.mul_assoc, ← Matrix.mul_assoc _ G, oG, Matrix.one_mul, oV]
  · rw [Matrix.transpose_mul, Matrix.transpose_mul, Matrix.transpose_transpose, ← hX]
    calc U.transpose * G'.transpose * (G' * (B * G.transpose)) * (G * V.transpose)
        = U.transpose * (G'.transpose * G') * B * (G.transpose * G) * V.transpose := by simp only [Matrix.mul_assoc]
      _ = _ := by rw [oG, oG', Matrix.mul_one, Matrix.mul_one]

/-- the first `k` steps of a sweep -/
def swK (sqrt : K → K) (f : ℕ → ℕ → K) : ℕ → ℕ → ℕ → K
  | 0 => f
  | k + 1 => swF sqrt k (swK sqrt f k)

/-- the first `N` sweeps -/
def swN (sqrt : K → K) (n : ℕ) (f : ℕ → ℕ → K) : ℕ → ℕ → ℕ → K
  | 0 => f
  | N + 1 => swK sqrt (swN sqrt n f N) (n - 1)

theorem msweep_full (hs : IsSqrt sqrt) {n : Nat} {X : Matrix (Fin n) (Fin n) K} {f : ℕ → ℕ → K}
    {st : Mat K × Mat K × Mat K} (h : SwSt X f st) :
    ∃ st', Mat.msweep sqrt st = some st' ∧ SwSt X (swK sqrt f (n - 1)) st' := by
  have hn : st.2.1.n = n := by
    obtain ⟨U, B, V, hU, hB, -⟩ := h
    exact hB.cols
  unfold Mat.msweep
  rw [hn]
  exact forRange_inv (fun k st => SwSt X (swK sqrt f k) st) (by omega) h (fun i t _ hi ht => msweepStep_full hs (by omega) ht)

theorem msweeps_full (hs : IsSqrt sqrt) {n : Nat} {X : Matrix (Fin n) (Fin n) K} {f : ℕ → ℕ → K}
    {st : Mat K × Mat K × Mat K} (h : SwSt X f st) (N : ℕ) :
    ∃ st', forRange 0 N (fun st _ => Mat.msweep sqrt st) st = some st' ∧ SwSt X (swN sqrt n f N) st' :=
  forRange_inv (fun N st => SwSt X (swN sqrt n f N) st) (by omega) h (fun i t _ hi ht => msweep_full hs ht)

/-! ### Sums of squares -/

/-- sum of squares of a row -/
def rsq (n : ℕ) (f : ℕ → ℕ → K) (i : ℕ) : K := ∑ c ∈ range n, f i c ^ 2

theorem rsq_rotR {n k : ℕ} (hk : k + 1 < n) {c s : K} (h : c * c + s * s = 1) (f : ℕ → ℕ → K) (i : ℕ) :
    rsq n (rotR c s k f) i = rsq n f i := by
  have key : ∀ g : ℕ → K, ∑ j ∈ range n, g j = g k + g (k + 1) + ∑ j ∈ ((range n).erase k).erase (k + 1), g j := by
    intro g
    rw [← add_sum_erase (range n) g (mem_range.2 (by omega : k < n)),
      ← add_sum_erase ((range n).erase k) g (mem_erase.2 ⟨by omega, mem_range.2 hk⟩), add_assoc]
  unfold rsq
  rw [key, key]
  congr 1
  · unfold rotR
    rw [if_pos rfl, if_neg (by omega), if_pos rfl]
    linear_combination (f i k ^ 2 + f i (k + 1) ^ 2) * h
  · refine sum_congr rfl fun j hj => ?_
    rw [mem_erase, mem_erase] at hj
    unfold rotR
    rw [if_neg hj.2.1, if_neg hj.1]

theorem rsq_rotL {n k : ℕ} {c s : K} (h : c * c + s * s = 1) (f : ℕ → ℕ → K) :
    rsq n (rotL c s k f) k + rsq n (rotL c s k f) (k + 1) = rsq n f k + rsq n f (k + 1) := by
  unfold rsq
  rw [← sum_add_distrib, ← sum_add_distrib]
  refine sum_congr rfl fun j _ => ?_
  unfold rotL
  rw [if_pos rfl, if_neg (by omega), if_pos rfl]
  linear_combination (f k j ^ 2 + f (k + 1) j ^ 2) * h

theorem rsq_rotL_ne {n k i : ℕ} {c s : K} (f : ℕ → ℕ → K) (h1 : i ≠ k) (h2 : i ≠ k + 1) :
    rsq n (rotL c s k f) i = rsq n f i := by
  unfold rsq
  refine sum_congr rfl fun j _ => ?_
  unfold rotL
  rw [if_neg h1, if_neg h2]

/-- sum of squares of the first `j` rows -/
def psq (n : ℕ) (f : ℕ → ℕ → K) (j : ℕ) : K := ∑ i ∈ range j, rsq n f i

theorem psq_le {n k j : ℕ} {c s : K} (f : ℕ → ℕ → K) (h : j ≤ k) : psq n (rotL c s k f) j = psq n f j :=
  sum_congr rfl fun i hi => by
    have := mem_range.1 hi
    exact rsq_rotL_ne f (by omega) (by omega)

theorem psq_ge {n k j : ℕ} {c s : K} (hcs : c * c + s * s = 1) (f : ℕ → ℕ → K) (h : k + 2 ≤ j) :
    psq n (rotL c s k f) j = psq n f j := by
  induction j, h using Nat.le_induction with
  | base =>
    unfold psq
    rw [sum_range_succ, sum_range_succ, sum_range_succ, sum_range_succ, add_assoc, add_assoc, rsq_rotL hcs]
    congr 1
    exact psq_le f le_rfl
  | succ j hj ih =>
    unfold psq at ih ⊢
    rw [sum_range_succ, sum_range_succ, ih, rsq_rotL_ne f (by omega) (by omega)]

/-- before step `k` of a sweep that started with `f0` -/
structure SwJ (n k : ℕ) (f0 f : ℕ → ℕ → K) : Prop where
  low : ∀ i j, j < i → f i j = 0
  far : ∀ i j, i + 1 < k → i + 1 < j → f i j = 0
  far' : ∀ i j, k ≤ i → i + 1 < j → f i j = 0
  par : ∀ i, i + 1 = k → ∃ l, ∀ j, i < j → f i j = l * f k j
  dg : ∀ i, i + 1 < n → f i i ≠ 0
  eq : ∀ j, k < j → psq n f j = psq n f0 j
  sup : ∀ i j, n ≤ j → f i j = 0
  off : ∀ i, i < k → psq n f0 (i + 1) + (rsq n f i - f i i ^ 2) ≤ psq n f (i + 1)

theorem swJ_step (hs : IsSqrt sqrt) {n k : ℕ} (hk : k + 1 < n) {f0 f : ℕ → ℕ → K} (h : SwJ n k f0 f) :
    SwJ n (k + 1) f0 (swF sqrt k f) := by
  have ha : f k k ≠ 0 := h.dg k hk
  unfold swF
  obtain ⟨c, s, t, hr, u, z, cn⟩ := rot_spec hs ha (f k (k + 1))
  simp only [hr]
  set g := rotR c s k f with hg
  have gne : ∀ i j, j ≠ k → j ≠ k + 1 → g i j = f i j := fun i j h1 h2 => by
    rw [hg]; unfold rotR; rw [if_neg h1, if_neg h2]
  have gk : ∀ i, g i k = c * f i k + s * f i (k + 1) := fun i => by
    rw [hg]; unfold rotR; rw [if_pos rfl]
  have gk1 : ∀ i, g i (k + 1) = -s * f i k + c * f i (k + 1) := fun i => by
    rw [hg]; unfold rotR; rw [if_neg (by omega), if_pos rfl]
  have gkk : g k k ≠ 0 := by
    intro h0
    have e : g k k ^ 2 = f k k ^ 2 + f k (k + 1) ^ 2 := by
      rw [gk]
      linear_combination (f k k ^ 2 + f k (k + 1) ^ 2) * u - (c * f k (k + 1) - s * f k k) * z
    rw [h0] at e
    have := pow_pos (abs_pos.2 ha) 2
    rw [sq_abs] at this
    nlinarith [sq_nonneg (f k (k + 1))]
  have gsup : g k (k + 1) = 0 := by rw [gk1]; linear_combination z
  obtain ⟨c', s', t', hr', u', z', cn'⟩ := rot_spec hs gkk (g (k + 1) k)
  simp only [hr']
  set q := rotL c' s' k g with hq
  have qne : ∀ i j, i ≠ k → i ≠ k + 1 → q i j = g i j := fun i j h1 h2 => by
    rw [hq]; unfold rotL; rw [if_neg h1, if_neg h2]
  have qk : ∀ j, q k j = c' * g k j + s' * g (k + 1) j := fun j => by
    rw [hq]; unfold rotL; rw [if_pos rfl]
  have qk1 : ∀ j, q (k + 1) j = -s' * g k j + c' * g (k + 1) j := fun j => by
    rw [hq]; unfold rotL; rw [if_neg (by omega), if_pos rfl]
  -- rows of `g`
  have grow : ∀ i j, i + 1 < k → g i j = f i j := by
    intro i j hi
    by_cases e1 : j = k
    · subst e1
      rw [gk, h.far i j hi hi, h.far i (j + 1) hi (by omega)]; ring
    · by_cases e2 : j = k + 1
      · subst e2
        rw [gk1, h.far i k hi hi, h.far i (k + 1) hi (by omega)]; ring
      · exact gne i j e1 e2
  have growl : ∀ i j, k + 1 < i → g i j = f i j := by
    intro i j hi
    by_cases e1 : j = k
    · subst e1
      rw [gk, h.low i j (by omega), h.low i (j + 1) (by omega)]; ring
    · by_cases e2 : j = k + 1
      · subst e2
        rw [gk1, h.low i k (by omega), h.low i (k + 1) (by omega)]; ring
      · exact gne i j e1 e2
  have gkj : ∀ j, k < j → g k j = 0 := by
    intro j hj
    by_cases e2 : j = k + 1
    · rw [e2, gsup]
    · rw [gne k j (by omega) e2]
      exact h.far' k j le_rfl (by omega)
  have gdiag : ∀ i, i < k → g i i = f i i := fun i hi => gne i i (by omega) (by omega)
  have qdiag : ∀ i, i < k → q i i = f i i := fun i hi => by rw [qne i i (by omega) (by omega), gdiag i hi]
  have qrsq : ∀ i, i < k → rsq n q i = rsq n f i := fun i hi => by
    rw [hq, rsq_rotL_ne g (by omega) (by omega), hg, rsq_rotR hk u]
  have gpsq : ∀ j, psq n g j = psq n f j := fun j => sum_congr rfl fun i _ => rsq_rotR hk u f i
  refine ⟨?_, ?_, ?_, ?_, ?_, ?_, ?_, ?_⟩
  · intro i j hj
    by_cases e1 : i = k
    · subst e1
      rw [qk, gne i j (by omega) (by omega), gne (i + 1) j (by omega) (by omega), h.low i j hj, h.low (i + 1) j (by omega)]
      ring
    · by_cases e2 : i = k + 1
      · subst e2
        rw [qk1]
        by_cases e3 : j = k
        · subst e3
          linear_combination z'
        · rw [gne k j (by omega) (by omega), gne (k + 1) j (by omega) (by omega), h.low k j (by omega), h.low (k + 1) j (by omega)]
          ring
      · rw [qne i j e1 e2]
        by_cases hik : i < k
        · rw [gne i j (by omega) (by omega), h.low i j hj]
        · rw [growl i j (by omega), h.low i j hj]
  · intro i j hi hj
    rw [qne i j (by omega) (by omega)]
    by_cases e : i + 1 = k
    · obtain ⟨l, hl⟩ := h.par i e
      by_cases e2 : j = k + 1
      · subst e2
        rw [gk1, hl k (by omega), hl (k + 1) (by omega)]
        linear_combination l * z
      · rw [gne i j (by omega) e2, hl j (by omega), h.far' k j le_rfl (by omega), mul_zero]
    · rw [grow i j (by omega)]
      exact h.far i j (by omega) hj
  · intro i j hi hj
    by_cases e2 : i = k + 1
    · subst e2
      rw [qk1, gkj j (by omega), gne (k + 1) j (by omega) (by omega), h.far' (k + 1) j (by omega) hj]
      ring
    · rw [qne i j (by omega) e2, growl i j (by omega)]
      exact h.far' i j (by omega) hj
  · intro i hi
    obtain rfl : i = k := by omega
    refine ⟨s' / c', fun j hj => ?_⟩
    rw [qk, qk1, gkj j hj]
    field_simp
    ring
  · intro i hi
    by_cases e1 : i = k
    · subst e1
      intro h0
      have e : q i i ^ 2 = g i i ^ 2 + g (i + 1) i ^ 2 := by
        rw [qk]
        linear_combination (g i i ^ 2 + g (i + 1) i ^ 2) * u' - (c' * g (i + 1) i - s' * g i i) * z'
      rw [h0] at e
      have := pow_pos (abs_pos.2 gkk) 2
      rw [sq_abs] at this
      nlinarith [sq_nonneg (g (i + 1) i)]
    · by_cases e2 : i = k + 1
      · subst e2
        rw [qk1, gsup, gk1, h.low (k + 1) k (by omega)]
        have := mul_ne_zero cn' (mul_ne_zero cn (h.dg (k + 1) hi))
        intro h0
        apply this
        linear_combination h0
      · rw [qne i i e1 e2]
        by_cases hik : i < k
        · rw [gdiag i hik]; exact h.dg i hi
        · rw [growl i i (by omega)]; exact h.dg i hi
  · intro j hj
    rw [hq, psq_ge u' g (by omega), gpsq, h.eq j (by omega)]
  · intro i j hj
    have : ∀ i, g i j = 0 := fun i => by rw [gne i j (by omega) (by omega), h.sup i j hj]
    rw [hq]
    unfold rotL
    simp only [this]
    simp
  · intro i hi
    by_cases e : i = k
    · subst e
      have e1 : psq n q (i + 1) = psq n f i + rsq n q i := by
        unfold psq
        rw [sum_range_succ]
        congr 1
        have := psq_le (n := n) (c := c') (s := s') g (le_refl i)
        rw [gpsq] at this
        exact this
      have e2 : psq n f (i + 1) = psq n f i + rsq n f i := by unfold psq; rw [sum_range_succ]
      have e3 : q i i ^ 2 = g i i ^ 2 + g (i + 1) i ^ 2 := by
        rw [qk]
        linear_combination (g i i ^ 2 + g (i + 1) i ^ 2) * u' - (c' * g (i + 1) i - s' * g i i) * z'
      have e4 : rsq n f i = g i i ^ 2 := by
        rw [← rsq_rotR hk u f i, ← hg]
        unfold rsq
        rw [sum_eq_single i]
        · intro j _ hj
          rcases lt_or_gt_of_ne hj with h1 | h1
          · rw [gne i j (by omega) (by omega), h.low i j h1]; ring
          · rw [gkj j h1]; ring
        · intro hni
          exact absurd (mem_range.2 (by omega)) hni
      rw [e1, ← h.eq (i + 1) (by omega), e2, e4]
      nlinarith [sq_nonneg (g (i + 1) i)]
    · rw [qrsq i (by omega), qdiag i (by omega), hq, psq_le g (by omega), gpsq]
      exact h.off i (by omega)

/-- upper bidiagonal with nonzero diagonal except for the last entry -/
structure Bid (n : ℕ) (f : ℕ → ℕ → K) : Prop where
  low : ∀ i j, j < i → f i j = 0
  far : ∀ i j, i + 1 < j → f i j = 0
  dg : ∀ i, i + 1 < n → f i i ≠ 0
  sup : ∀ i j, n ≤ j → f i j = 0

theorem swK_J (hs : IsSqrt sqrt) {n : ℕ} {f : ℕ → ℕ → K} (h : Bid n f) (k : ℕ) (hk : k + 1 ≤ n) : SwJ n k f (swK sqrt f k) := by
  induction k with
  | zero => exact ⟨h.low, fun i j hi => by omega, fun i j _ hj => h.far i j hj, fun i hi => by omega, h.dg,
      fun j _ => rfl, h.sup, fun i hi => by omega⟩
  | succ k ih => exact swJ_step hs (by omega) (ih (by omega))

/-- what a sweep does -/
theorem swK_spec (hs : IsSqrt sqrt) {n : ℕ} (hn : 0 < n) {f : ℕ → ℕ → K} (h : Bid n f) : Bid n (swK sqrt f (n - 1)) ∧
    psq n (swK sqrt f (n - 1)) n = psq n f n ∧
    ∀ i, i + 1 < n → psq n f (i + 1) + (rsq n (swK sqrt f (n - 1)) i - swK sqrt f (n - 1) i i ^ 2) ≤
      psq n (swK sqrt f (n - 1)) (i + 1) := by
  have hJ := swK_J hs h (n - 1) (by omega)
  refine ⟨⟨hJ.low, fun i j hj => ?_, hJ.dg, hJ.sup⟩, hJ.eq n (by omega), fun i hi => hJ.off i (by omega)⟩
  by_cases h1 : i + 1 < n - 1
  · exact hJ.far i j h1 hj
  · by_cases h2 : n - 1 ≤ i
    · exact hJ.far' i j h2 hj
    · exact hJ.sup i j (by omega)

theorem swN_Bid (hs : IsSqrt sqrt) {n : ℕ} (hn : 0 < n) {f : ℕ → ℕ → K} (h : Bid n f) (N : ℕ) : Bid n (swN sqrt n f N) := by
  induction N with
  | zero => exact h
  | succ N ih => exact (swK_spec hs hn ih).1

theorem swN_psq (hs : IsSqrt sqrt) {n : ℕ} (hn : 0 < n) {f : ℕ → ℕ → K} (h : Bid n f) (N : ℕ) :
    psq n (swN sqrt n f N) n = psq n f n := by
  induction N with
  | zero => rfl
  | succ N ih => rw [← ih]; exact (swK_spec hs hn (swN_Bid hs hn h N)).2.1

theorem rsq_nonneg (n : ℕ) (f : ℕ → ℕ → K) (i : ℕ) : 0 ≤ rsq n f i := sum_nonneg fun _ _ => sq_nonneg _

theorem psq_mono (n : ℕ) (f : ℕ → ℕ → K) {i j : ℕ} (h : i ≤ j) : psq n f i ≤ psq n f j :=
  sum_le_sum_of_subset_of_nonneg (range_subset_range.2 h) fun _ _ _ => rsq_nonneg _ _ _

theorem off_nonneg {n : ℕ} (f : ℕ → ℕ → K) {i : ℕ} (h : i < n) : 0 ≤ rsq n f i - f i i ^ 2 := by
  have := single_le_sum (f := fun c => f i c ^ 2) (fun _ _ => sq_nonneg _) (mem_range.2 h)
  unfold rsq
  linarith

end

section
open Filter Topology
variable {n : ℕ} {f : ℕ → ℕ → ℝ}

theorem psq_tendsto (hn : 0 < n) (h : Bid n f) {j : ℕ} (hj : j ≤ n) :
    ∃ l, Tendsto (fun N => psq n (swN Real.sqrt n f N) j) atTop (𝓝 l) := by
  rcases Nat.eq_zero_or_pos j with rfl | hj0
  · exact ⟨0, by simp [psq]⟩
  rcases Nat.lt_or_ge j n with h1 | h1
  · refine ⟨_, tendsto_atTop_ciSup (monotone_nat_of_le_succ fun N => ?_) ⟨psq n f n, ?_⟩⟩
    · have h2 := (swK_spec isSqrt_real hn (swN_Bid isSqrt_real hn h N)).2.2 (j - 1) (by omega)
      rw [show j - 1 + 1 = j by omega] at h2
      have h3 := off_nonneg (swK Real.sqrt (swN Real.sqrt n f N) (n - 1)) (show j - 1 < n by omega)
      show _ ≤ psq n (swK Real.sqrt (swN Real.sqrt n f N) (n - 1)) j
      linarith
    · rintro _ ⟨N, rfl⟩
      rw [← swN_psq isSqrt_real hn h N]
      exact psq_mono n _ hj
  · obtain rfl : j = n := le_antisymm hj h1
    exact ⟨psq j f j, by simp only [swN_psq isSqrt_real hn h]; exact tendsto_const_nhds⟩

theorem off_tendsto (hn : 0 < n) (h : Bid n f) {i : ℕ} (hi : i < n) :
    Tendsto (fun N => rsq n (swN Real.sqrt n f N) i - swN Real.sqrt n f N i i ^ 2) atTop (𝓝 0) := by
  rw [← tendsto_add_atTop_iff_nat 1]
  rcases Nat.lt_or_ge (i + 1) n with h1 | h1
  · obtain ⟨l, hl⟩ := psq_tendsto hn h (show i + 1 ≤ n by omega)
    have h2 := ((tendsto_add_atTop_iff_nat 1).2 hl).sub hl
    rw [sub_self] at h2
    refine squeeze_zero (fun N => off_nonneg _ hi) (fun N => ?_) h2
    have := (swK_spec isSqrt_real hn (swN_Bid isSqrt_real hn h N)).2.2 i h1
    show rsq n (swK Real.sqrt (swN Real.sqrt n f N) (n - 1)) i - swK Real.sqrt (swN Real.sqrt n f N) (n - 1) i i ^ 2 ≤
      psq n (swK Real.sqrt (swN Real.sqrt n f N) (n - 1)) (i + 1) - _
    linarith
  · have : ∀ N, rsq n (swN Real.sqrt n f (N + 1)) i - swN Real.sqrt n f (N + 1) i i ^ 2 = 0 := by
      intro N
      have hb := swN_Bid isSqrt_real hn h (N + 1)
      unfold rsq
      rw [sum_eq_single i, sub_self]
      · intro j hj hji
        have := mem_range.1 hj
        rw [hb.low i j (by omega)]
        ring
      · intro hni
        exact absurd (mem_range.2 hi) hni
    simp only [this]
    exact tendsto_const_nhds

theorem entry_tendsto (hn : 0 < n) (h : Bid n f) {i j : ℕ} (hi : i < n) (hj : j < n) (hij : i ≠ j) :
    Tendsto (fun N => swN Real.sqrt n f N i j) atTop (𝓝 0) := by
  have h1 := off_tendsto hn h hi
  have h2 : Tendsto (fun N => swN Real.sqrt n f N i j ^ 2) atTop (𝓝 0) := by
    refine squeeze_zero (fun N => sq_nonneg _) (fun N => ?_) h1
    have := add_le_sum (f := fun c => swN Real.sqrt n f N i c ^ 2) (s := range n) (fun _ _ => sq_nonneg _)
      (mem_range.2 hi) (mem_range.2 hj) hij
    unfold rsq
    linarith
  have h3 := h2.sqrt
  simp only [Real.sqrt_sq_eq_abs, Real.sqrt_zero] at h3
  exact (tendsto_zero_iff_abs_tendsto_zero _).2 h3

theorem diag_tendsto (hn : 0 < n) (h : Bid n f) {i : ℕ} (hi : i < n) :
    ∃ σ, 0 ≤ σ ∧ Tendsto (fun N => |swN Real.sqrt n f N i i|) atTop (𝓝 σ) := by
  obtain ⟨a, ha⟩ := psq_tendsto hn h (show i + 1 ≤ n by omega)
  obtain ⟨b, hb⟩ := psq_tendsto hn h (show i ≤ n by omega)
  have h1 := ((ha.sub hb).sub (off_tendsto hn h hi)).sqrt
  have : ∀ N, psq n (swN Real.sqrt n f N) (i + 1) - psq n (swN Real.sqrt n f N) i -
      (rsq n (swN Real.sqrt n f N) i - swN Real.sqrt n f N i i ^ 2) = swN Real.sqrt n f N i i ^ 2 := by
    intro N
    unfold psq
    rw [sum_range_succ]
    ring
  simp only [this, Real.sqrt_sq_eq_abs] at h1
  exact ⟨_, Real.sqrt_nonneg _, h1⟩

end

/-! ### `dec_sv` with any number of sweeps -/

/-- `dec_sv` with `rounds n` sweeps in place of `500 n²` -/
def Mat.decSvWith {K : Type} [Field K] [LinearOrder K] (sqrt : K → K) (rounds : ℕ → ℕ) (A : Mat K) :
    Option (Mat K × Mat K × Mat K) := do
  let ubv ← bidiag sqrt A
  let st ← forRange 0 (rounds ubv.2.1.n) (fun st _ => msweep sqrt st) (one ubv.2.1.n, ubv.2.1, ubv.2.2)
  let ut ← st.1.transpose
  let u ← ubv.1.mul ut
  let ub ← forRange 0 st.2.1.m svSign (u, st.2.1)
  let b ← svNull ub.2
  some (ub.1, b, st.2.2)

theorem Mat.decSv_eq {K : Type} [Field K] [LinearOrder K] (sqrt : K → K) (A : Mat K) :
    A.decSv sqrt = A.decSvWith sqrt (fun n => 500 * n * n) := rfl

section
variable {n : ℕ} {A : Mat ℝ} {M : Matrix (Fin n) (Fin n) ℝ}

theorem decSvWith_inv (hA : Repr A M) (h : A.bidiag Real.sqrt ≠ none) :
    0 < n ∧ ∃ f : ℕ → ℕ → ℝ, Bid n f ∧ ∀ N, ∃ u s v, A.decSvWith Real.sqrt (fun _ => N) = some (u, s, v) ∧
      ∃ U S V B Q C : Matrix (Fin n) (Fin n) ℝ, Repr u U ∧ Repr s S ∧ Repr v V ∧ U * U.transpose = 1 ∧ V * V.transpose = 1 ∧
        (∀ i j, i ≠ j → S i j = 0) ∧ (∀ i, S i i = |swN Real.sqrt n f N i i|) ∧ U * B * V.transpose = M ∧
        (∀ i, B i i = S i i) ∧ Q * Q.transpose = 1 ∧ Q * C * V.transpose = M ∧ ∀ i j : Fin n, C i j = swN Real.sqrt n f N i j := by
  obtain ⟨⟨u0, b0, v0⟩, h0⟩ := Option.ne_none_iff_exists'.1 h
  obtain ⟨hn, -, U0, B0, E0, V0, a1, a2, a3, a4, a5, a6, a7, a8, a9⟩ := bidiag_inv isSqrt_real hA h0
  have hE : E0 = 0 := by
    ext r c
    by_contra hne
    have := a8 r c hne
    omega
  rw [hE, add_zero] at a6
  have hext : ∀ i j, (∀ (hi : i < n) (hj : j < n), B0 ⟨i, hi⟩ ⟨j, hj⟩ = 0) → extM B0 i j = 0 := by
    intro i j hij
    unfold extM
    split
    · exact hij _ _
    · rfl
  refine ⟨hn, extM B0, ⟨fun i j hij => hext i j fun hi hj => a7 _ _ (by simp; omega) (by simp; omega),
    fun i j hij => hext i j fun hi hj => a7 _ _ (by simp; omega) (by simp; omega), fun i hi => ?_,
    fun i j hj => hext i j fun _ hj' => by omega⟩, fun N => ?_⟩
  · rw [extM_lt B0 (by omega) (by omega)]
    exact a9 _ _ rfl hi
  obtain ⟨st, e1, U1, B1, V1, c1, c2, c3, c4, c5, c6, c7⟩ := msweeps_full isSqrt_real (X := B0 * V0.transpose)
    (f := extM B0) (st := (Mat.one n, b0, v0)) ⟨1, B0, V0, repr_one n, a2, a3, by simp, a5, by simp, rfl⟩ N
  obtain ⟨ut, t1, t2⟩ := Mat.transpose_is c1.is (Or.inl rfl) (Or.inl hn)
  have t3 : Repr ut U1.transpose := t2.repr_of fun a b => extM_apply _ b a
  obtain ⟨u2, w1, w2⟩ := repr_mul a1 t3
  have c4' : U1.transpose * U1 = 1 := by rw [mul_eq_one_comm]; exact c4
  have oU2 : U0 * U1.transpose * (U0 * U1.transpose).transpose = 1 := by
    rw [Matrix.transpose_mul, Matrix.transpose_transpose, Matrix.mul_assoc, ← Matrix.mul_assoc _ U1, c4', Matrix.one_mul, a4]
  obtain ⟨ub, d1, U3, f3, d2, d3, d4, ⟨B3, d5, d6⟩, d7, d8⟩ := forRange_inv (a := 0) (b := n) (s := (u2, st.2.1))
    (f := Mat.svSign) (fun l ub => ∃ (U : Matrix (Fin n) (Fin n) ℝ) (f : Nat → Nat → ℝ), Repr ub.1 U ∧ ub.2.Is n n f ∧
      U * U.transpose = 1 ∧ (∃ B, U * B = U0 * U1.transpose * B1 ∧ ∀ i : Fin n, B i i = f i i) ∧ (∀ i, i < l → 0 ≤ f i i) ∧
      ∀ i, |f i i| = |extM B1 i i|)
    (by omega) ⟨_, _, w2, c2.is, oU2, ⟨B1, rfl, fun i => by rw [extM_apply]⟩, fun i hi => by omega, fun i => rfl⟩ (by
      rintro l t - hl ⟨U, f, g1, g2, g3, g4, g5, g6⟩
      obtain ⟨t', U', f', k1, k2, k3, k4, k5, k6, k7⟩ := svSign_inv hl g1 g2 g3 g4 g5
      exact ⟨t', k1, U', f', k2, k3, k4, k5, k6, fun i => (k7 i).trans (g6 i)⟩)
  obtain ⟨b', n1, n2⟩ := svNull_is d3
  refine ⟨ub.1, b', st.2.2, ?_, U3, _, V1, B3, U0 * U1.transpose, B1, d2, n2.repr, c3, d4, c5, ?_, ?_, ?_, ?_, oU2, ?_, ?_⟩
  · unfold Mat.decSvWith
    rw [h0]
    simp only [Option.bind_eq_bind, Option.bind_some, a2.cols]
    rw [e1, Option.bind_some, t1, Option.bind_some, w1, Option.bind_some, c2.rows, d1, Option.bind_some, n1, Option.bind_some]
  · intro i j hij
    simp only [mx]
    rw [if_pos]
    exact fun h => hij (Fin.ext h)
  · intro i
    rw [← c7, ← d8 i, abs_of_nonneg (d7 i i.2)]
    simp [mx]
  · rw [d5, Matrix.mul_assoc, Matrix.mul_assoc, ← Matrix.mul_assoc _ B1, c6, ← Matrix.mul_assoc, a6]
  · intro i
    rw [d6]
    simp [mx]
  · rw [Matrix.mul_assoc, Matrix.mul_assoc, ← Matrix.mul_assoc _ B1, c6, ← Matrix.mul_assoc, a6]
  · intro i j
    rw [← c7, extM_apply]

theorem frob_orth2 {U V B : Matrix (Fin n) (Fin n) ℝ} (hU : U * U.transpose = 1) (hV : V * V.transpose = 1) :
    ∑ i, ∑ j, (U * B * V.transpose) i j * (U * B * V.transpose) i j = ∑ i, ∑ j, B i j * B i j := by
  have h1 := frob_orth (U := U) (by rw [mul_eq_one_comm]; exact hU) (B * V.transpose)
  rw [← Matrix.mul_assoc] at h1
  rw [h1]
  have h2 := frob_orth (U := V) (by rw [mul_eq_one_comm]; exact hV) B.transpose
  rw [← Matrix.transpose_transpose (V * B.transpose), Matrix.transpose_mul, Matrix.transpose_transpose] at h2
  simp only [Matrix.transpose_apply] at h2
  rw [sum_comm, h2, sum_comm]

theorem charpoly_orth {Q V C : Matrix (Fin n) (Fin n) ℝ} (hQ : Q * Q.transpose = 1) (hV : V * V.transpose = 1)
    (hM : Q * C * V.transpose = M) : (M.transpose * M).charpoly = (C.transpose * C).charpoly := by
  have hQ' : Q.transpose * Q = 1 := by rw [mul_eq_one_comm]; exact hQ
  have hV' : V.transpose * V = 1 := by rw [mul_eq_one_comm]; exact hV
  have : M.transpose * M = V * (C.transpose * C * V.transpose) := by
    rw [← hM]
    simp only [Matrix.transpose_mul, Matrix.transpose_transpose, Matrix.mul_assoc]
    rw [← Matrix.mul_assoc Q.transpose, hQ', Matrix.one_mul]
  rw [this, Matrix.charpoly_mul_comm, Matrix.mul_assoc, hV', Matrix.mul_one]

open Filter Topology in
/-- **C77, convergence.** For every square matrix for which `householder_bidiag` returns there are numbers `σ ≥ 0`, the
square roots of the eigenvalues of `Aᵀ A` with their multiplicities, such that the result of `dec_sv`, run with enough sweeps,
is a decomposition `U S Vᵀ` with orthogonal `U`, `V`, the entries of `S` as close to `σ` and `U S Vᵀ` as close to `A` as
desired. -/
theorem C77_sv_converges (hA : Repr A M) (h : A.bidiag Real.sqrt ≠ none) :
    ∃ σ : Fin n → ℝ, (∀ i, 0 ≤ σ i) ∧
      (M.transpose * M).charpoly = ∏ i, (Polynomial.X - Polynomial.C (σ i ^ 2)) ∧
      ∀ ε > 0, ∃ N₀, ∀ N ≥ N₀, ∃ u s v, A.decSvWith Real.sqrt (fun _ => N) = some (u, s, v) ∧
        ∃ U S V : Matrix (Fin n) (Fin n) ℝ, Repr u U ∧ Repr s S ∧ Repr v V ∧ U * U.transpose = 1 ∧ V * V.transpose = 1 ∧
          (∀ i j, i ≠ j → S i j = 0) ∧ (∀ i, 0 ≤ S i i ∧ |S i i - σ i| ≤ ε) ∧
          ∀ i j, |(U * S * V.transpose) i j - M i j| ≤ ε := by
  obtain ⟨hn, f, hf, key⟩ := decSvWith_inv hA h
  choose σ hσ hlim using fun i : Fin n => diag_tendsto hn hf i.2
  refine ⟨σ, hσ, ?_, fun ε hε => ?_⟩
  · refine Polynomial.funext fun x => ?_
    rw [Matrix.eval_charpoly, Polynomial.eval_prod]
    simp only [Polynomial.eval_sub, Polynomial.eval_X, Polynomial.eval_C]
    set C : ℕ → Matrix (Fin n) (Fin n) ℝ := fun N => Matrix.of fun i j => swN Real.sqrt n f N i j with hC
    have h1 : ∀ N, (Matrix.scalar (Fin n) x - M.transpose * M).det = (Matrix.scalar (Fin n) x - (C N).transpose * C N).det := by
      intro N
      obtain ⟨u, s, v, -, U, S, V, B, Q, C', -, -, -, -, b5, -, -, -, -, b10, b11, b12⟩ := key N
      have hCC : C' = C N := by ext i j; rw [b12]; rfl
      rw [← Matrix.eval_charpoly, ← Matrix.eval_charpoly, charpoly_orth b10 b5 b11, hCC]
    have h2 : Tendsto (fun N => (C N).transpose * C N) atTop (𝓝 (Matrix.diagonal fun i => σ i ^ 2)) := by
      refine tendsto_pi_nhds.2 fun i => tendsto_pi_nhds.2 fun j => ?_
      simp only [Matrix.mul_apply, Matrix.transpose_apply]
      by_cases hij : i = j
      · subst hij
        rw [Matrix.diagonal_apply_eq]
        have : ∀ l : Fin n, Tendsto (fun N => C N l i * C N l i) atTop (𝓝 (if l = i then σ i ^ 2 else 0)) := by
          intro l
          by_cases hl : l = i
          · subst hl
            rw [if_pos rfl, pow_two]
            have := (hlim l).mul (hlim l)
            simp only [abs_mul_abs_self] at this
            exact this
          · rw [if_neg hl]
            have := entry_tendsto hn hf l.2 i.2 (fun h => hl (Fin.ext h))
            have := this.mul this
            rw [mul_zero] at this
            exact this
        have := tendsto_finsetSum univ fun l _ => this l
        simpa using this
      · rw [Matrix.diagonal_apply_ne _ hij]
        have hb : ∀ N (a b : Fin n), |C N a b| ≤ Real.sqrt (psq n f n) := by
          intro N a b
          rw [← swN_psq isSqrt_real hn hf N, ← Real.sqrt_sq_eq_abs]
          refine Real.sqrt_le_sqrt ?_
          have e1 := single_le_sum (f := fun c => swN Real.sqrt n f N a c ^ 2) (fun _ _ => sq_nonneg _) (mem_range.2 b.2)
          have e2 := single_le_sum (f := fun r => rsq n (swN Real.sqrt n f N) r) (fun _ _ => rsq_nonneg _ _ _) (mem_range.2 a.2)
          exact e1.trans e2
        have : ∀ l : Fin n, Tendsto (fun N => C N l i * C N l j) atTop (𝓝 0) := by
          intro l
          by_cases hl : l = i
          · subst hl
            have h0 := entry_tendsto hn hf l.2 j.2 (fun h => hij (Fin.ext h))
            exact bdd_le_mul_tendsto_zero' (Real.sqrt (psq n f n)) (Eventually.of_forall fun N => hb N l l) h0
          · have h0 := entry_tendsto hn hf l.2 i.2 (fun h => hl (Fin.ext h))
            have := bdd_le_mul_tendsto_zero' (Real.sqrt (psq n f n)) (Eventually.of_forall fun N => hb N l j) h0
            refine this.congr fun N => ?_
            exact mul_comm _ _
        have := tendsto_finsetSum univ fun l _ => this l
        simpa using this
    have h3 : Tendsto (fun N => (Matrix.scalar (Fin n) x - (C N).transpose * C N).det) atTop
        (𝓝 (Matrix.scalar (Fin n) x - Matrix.diagonal fun i => σ i ^ 2).det) := by
      have hc : Continuous fun X : Matrix (Fin n) (Fin n) ℝ => (Matrix.scalar (Fin n) x - X).det :=
        (continuous_const.sub continuous_id).matrix_det
      exact (hc.tendsto _).comp h2
    simp only [← h1] at h3
    rw [tendsto_nhds_unique tendsto_const_nhds h3, Matrix.scalar_apply, Matrix.diagonal_sub, Matrix.det_diagonal]
  · have hoff : Tendsto (fun N => ∑ i : Fin n, (rsq n (swN Real.sqrt n f N) i - swN Real.sqrt n f N i i ^ 2)) atTop (𝓝 0) := by
      have := tendsto_finsetSum univ fun (i : Fin n) _ => off_tendsto hn hf i.2
      simpa using this
    have e1 : ∀ᶠ N in atTop, ∀ i : Fin n, |(|swN Real.sqrt n f N i i|) - σ i| ≤ ε := by
      rw [eventually_all]
      intro i
      have := Metric.tendsto_atTop.1 (hlim i) ε hε
      obtain ⟨N0, hN0⟩ := this
      exact eventually_atTop.2 ⟨N0, fun N hN => by have := hN0 N hN; rw [Real.dist_eq] at this; exact this.le⟩
    have e2 : ∀ᶠ N in atTop, ∑ i : Fin n, (rsq n (swN Real.sqrt n f N) i - swN Real.sqrt n f N i i ^ 2) ≤ ε ^ 2 :=
      hoff.eventually_le_const (by positivity)
    obtain ⟨N0, hN0⟩ := eventually_atTop.1 (e1.and e2)
    refine ⟨N0, fun N hN => ?_⟩
    obtain ⟨u, s, v, b0, U, S, V, B, Q, C, b1, b2, b3, b4, b5, b6, b7, b8, b9, b10, b11, b12⟩ := key N
    obtain ⟨g1, g2⟩ := hN0 N hN
    refine ⟨u, s, v, b0, U, S, V, b1, b2, b3, b4, b5, b6, fun i => ⟨?_, ?_⟩, fun i j => ?_⟩
    · rw [b7]; exact abs_nonneg _
    · rw [b7]; exact g1 i
    have hfC : ∑ i, ∑ j, C i j * C i j = ∑ i : Fin n, rsq n (swN Real.sqrt n f N) i := by
      refine sum_congr rfl fun i _ => ?_
      unfold rsq
      rw [← Fin.sum_univ_eq_sum_range (fun c => swN Real.sqrt n f N i c ^ 2) n]
      exact sum_congr rfl fun j _ => by rw [b12]; ring
    have hfB : ∑ i, ∑ j, B i j * B i j = ∑ i : Fin n, rsq n (swN Real.sqrt n f N) i := by
      rw [← hfC, ← frob_orth2 (B := C) b10 b5, b11, ← frob_orth2 (B := B) b4 b5, b8]
    have hD : ∑ i, ∑ j, (S - B) i j * (S - B) i j =
        ∑ i : Fin n, (rsq n (swN Real.sqrt n f N) i - swN Real.sqrt n f N i i ^ 2) := by
      rw [sum_sub_distrib, ← hfB, ← sum_sub_distrib]
      refine sum_congr rfl fun i _ => ?_
      rw [← sq_abs, ← b7 i, ← add_sum_erase univ _ (mem_univ i), ← add_sum_erase univ (fun j => B i j * B i j) (mem_univ i),
        sum_congr rfl (fun j hj => by
          show (S - B) i j * (S - B) i j = B i j * B i j
          rw [Matrix.sub_apply, b6 i j (ne_of_mem_erase hj).symm]; ring), Matrix.sub_apply, b9]
      ring
    have hU : U * S * V.transpose - M = U * (S - B) * V.transpose := by
      rw [← b8, Matrix.mul_sub, Matrix.sub_mul]
    have hle : ((U * S * V.transpose) i j - M i j) ^ 2 ≤ ε ^ 2 := by
      rw [← Matrix.sub_apply, hU, pow_two]
      refine le_trans ?_ g2
      rw [← hD, ← frob_orth2 b4 b5]
      have e3 := single_le_sum (f := fun j => (U * (S - B) * V.transpose) i j * (U * (S - B) * V.transpose) i j)
        (fun _ _ => mul_self_nonneg _) (mem_univ j)
      have e4 := single_le_sum (f := fun i => ∑ j, (U * (S - B) * V.transpose) i j * (U * (S - B) * V.transpose) i j)
        (fun _ _ => sum_nonneg fun _ _ => mul_self_nonneg _) (mem_univ i)
      exact e3.trans e4
    exact abs_le_of_sq_le_sq hle hε.le

/-- `i + 1` columns with nonzero entries in `i` rows only -/
theorem det_zero_of_cols {i : ℕ} (hi : i < n) {T : Matrix (Fin n) (Fin n) ℝ}
    (hT : ∀ r c : Fin n, (c : ℕ) ≤ i → i ≤ (r : ℕ) → T r c = 0) : T.det = 0 := by
  rw [Matrix.det_apply]
  refine sum_eq_zero fun p _ => ?_
  suffices h : ∃ c : Fin n, (c : ℕ) ≤ i ∧ i ≤ (p c : ℕ) by
    obtain ⟨c, h1, h2⟩ := h
    rw [prod_eq_zero (f := fun c => T (p c) c) (mem_univ c) (hT _ _ h1 h2), smul_zero]
  by_contra hno
  push Not at hno
  have : ((univ : Finset (Fin (i + 1))).image fun c : Fin (i + 1) => (p ⟨c, by omega⟩ : ℕ)) ⊆ range i := by
    intro x hx
    obtain ⟨c, -, rfl⟩ := mem_image.1 hx
    exact mem_range.2 (hno _ (by simp; omega))
  have h2 := card_le_card this
  rw [card_image_of_injective, card_univ, Fintype.card_fin, card_range] at h2
  · omega
  · intro a b hab
    have := p.injective (Fin.ext hab)
    simpa [Fin.ext_iff] using this

/-- `householder_bidiag`, and so `dec_sv`, return for every regular matrix. -/
theorem C77_sv_regular (hA : Repr A M) (hn : 0 < n) (hM : M.det ≠ 0) :
    A.bidiag Real.sqrt ≠ none ∧ A.decSv Real.sqrt ≠ none := by
  have h1 : A.bidiag Real.sqrt ≠ none := by
    unfold Mat.bidiag
    rw [hA.rows, hA.cols, if_neg (by omega)]
    obtain ⟨st, e1, e2⟩ := forRange_inv (a := 0) (b := n - 1) (f := Mat.bidiagStep Real.sqrt n n)
      (s := (Mat.one n, A, Mat.one n)) (fun i st => BiInv M i st) (by omega)
      ⟨1, M, 1, repr_one n, hA, repr_one n, by simp, by simp, by simp, by intros; omega, by intros; omega, by intros; omega⟩ (by
        intro i st _ hi hst
        rcases bidiagStep_cases isSqrt_real le_rfl (by omega) hst rfl with ⟨-, h0⟩ | h
        · exfalso
          obtain ⟨U, T, V, hU, hT, hV, oU, oV, hM', z1, z2, z3⟩ := hst
          apply hM
          rw [← hM', Matrix.det_mul, Matrix.det_mul, det_zero_of_cols (T := T) (i := i) (by omega) (fun r c hc hr => ?_)]
          · ring
          · by_cases e : (c : ℕ) = i
            · have := h0 T hT r hr
              have hc' : c = ⟨i, by omega⟩ := Fin.ext e
              rw [hc']
              exact this
            · exact z1 r c (by omega) (by omega)
        · exact h)
    obtain ⟨U, T, V, hU, hT, hV, -⟩ := e2
    obtain ⟨b', b1, -⟩ := nullRows (fun i k => k ≠ i ∧ k ≠ i + 1) hT.is
    simp only [Option.bind_eq_bind]
    rw [e1, Option.bind_some, b1]
    simp
  exact ⟨h1, fun h => h1 ((C77_sv_returns hA).1 h)⟩

/-- a `2×2` matrix with the singular values `√5 + 1` and `√5 - 1`, up to their order -/
example : ∃ σ : Fin 2 → ℝ, (∀ i, 0 ≤ σ i) ∧ σ 0 ^ 2 + σ 1 ^ 2 = 12 ∧ σ 0 * σ 1 = 4 ∧
    ∀ ε > 0, ∃ N₀, ∀ N ≥ N₀, ∃ u s v, (⟨2, 2, [1, 1, -1, 3]⟩ : Mat ℝ).decSvWith Real.sqrt (fun _ => N) = some (u, s, v) ∧
      ∃ S : Matrix (Fin 2) (Fin 2) ℝ, Repr s S ∧ |S 0 0 - σ 0| ≤ ε ∧ |S 1 1 - σ 1| ≤ ε := by
  have hA : Repr (⟨2, 2, [1, 1, -1, 3]⟩ : Mat ℝ) !![1, -1; 1, 3] :=
    ⟨rfl, rfl, rfl, fun i j => by fin_cases i <;> fin_cases j <;> rfl⟩
  have hd : (!![1, -1; 1, 3] : Matrix (Fin 2) (Fin 2) ℝ).det ≠ 0 := by
    rw [Matrix.det_fin_two_of]; norm_num
  obtain ⟨σ, h1, h2, h3⟩ := C77_sv_converges hA (C77_sv_regular hA (by norm_num) hd).1
  rw [Fin.prod_univ_two] at h2
  have e0 := congrArg (Polynomial.eval 0) h2
  have e1 := congrArg (Polynomial.eval 1) h2
  rw [Matrix.eval_charpoly, Matrix.det_fin_two] at e0 e1
  simp [Matrix.mul_apply, Fin.sum_univ_two] at e0 e1
  refine ⟨σ, h1, by nlinarith, ?_, fun ε hε => ?_⟩
  · have : (σ 0 * σ 1) ^ 2 = 4 ^ 2 := by nlinarith
    exact (pow_left_inj₀ (mul_nonneg (h1 0) (h1 1)) (by norm_num) (by norm_num)).1 this
  · obtain ⟨N₀, h4⟩ := h3 ε hε
    refine ⟨N₀, fun N hN => ?_⟩
    obtain ⟨u, s, v, h5, U, S, V, -, h6, -, -, -, -, h7, -⟩ := h4 N hN
    exact ⟨u, s, v, h5, S, h6, (h7 0).2, (h7 1).2⟩

end
end Verif
