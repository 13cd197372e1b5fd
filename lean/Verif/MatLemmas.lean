import Verif.MatModel
import Mathlib.Data.Matrix.Mul
import Mathlib.Algebra.BigOperators.Fin
import Mathlib.Algebra.BigOperators.Intervals
import Mathlib.Tactic.Ring
import Mathlib.Tactic.Linarith

/-!
# Specification relation between `Mat` and Mathlib matrices, and helper lemmas
-/

namespace Verif
open Finset

variable {K : Type}

/-- Specification: `A` is an `m × n` matrix object whose `get` returns the entries of the
    mathematical matrix `M` (and whose buffer holds nothing else). -/
structure Repr {m n : Nat} (A : Mat K) (M : Matrix (Fin m) (Fin n) K) : Prop where
  rows : A.m = m
  cols : A.n = n
  len : A.data.length = m * n
  entry : ∀ (i : Fin m) (j : Fin n), A.get i j = some (M i j)

/-- Helper form of `Repr` with natural-number indices. -/
structure Mat.Is (A : Mat K) (m n : Nat) (f : Nat → Nat → K) : Prop where
  hm : A.m = m
  hn : A.n = n
  hlen : A.data.length = m * n
  hget : ∀ i j, i < m → j < n → A.data[j * m + i]? = some (f i j)

/-- pointwise update of a two-argument function -/
def upd (f : Nat → Nat → K) (i j : Nat) (v : K) : Nat → Nat → K :=
  fun a b => if a = i ∧ b = j then v else f a b

@[simp] theorem upd_same (f : Nat → Nat → K) (i j : Nat) (v : K) : upd f i j v i j = v := by
  simp [upd]

theorem upd_ne (f : Nat → Nat → K) {i j a b : Nat} (v : K) (h : ¬(a = i ∧ b = j)) :
    upd f i j v a b = f a b := by
  simp [upd, h]

theorem idx_lt {m n i j : Nat} (hi : i < m) (hj : j < n) : j * m + i < m * n := by
  calc j * m + i < j * m + m := by omega
    _ = (j + 1) * m := by ring
    _ ≤ n * m := Nat.mul_le_mul_right _ hj
    _ = m * n := Nat.mul_comm _ _

theorem idx_inj {m i j a b : Nat} (hi : i < m) (ha : a < m) (h : j * m + i = b * m + a) :
    i = a ∧ j = b := by
  have hm : 0 < m := by omega
  have h1 : (j * m + i) / m = j := by
    rw [Nat.add_comm, Nat.add_mul_div_right _ _ hm, Nat.div_eq_of_lt hi]; simp
  have h2 : (b * m + a) / m = b := by
    rw [Nat.add_comm, Nat.add_mul_div_right _ _ hm, Nat.div_eq_of_lt ha]; simp
  have : j = b := by rw [← h1, ← h2, h]
  subst this
  exact ⟨by omega, rfl⟩

namespace Mat

theorem Is.get {A : Mat K} {m n : Nat} {f} (h : A.Is m n f) {i j : Nat} (hi : i < m) (hj : j < n) :
    A.get i j = some (f i j) := by
  simp [Mat.get, h.hm, h.hn, hi, hj, h.hget i j hi hj]

theorem Is.get_none {A : Mat K} {m n : Nat} {f} (h : A.Is m n f) {i j : Nat}
    (hij : ¬(i < m ∧ j < n)) : A.get i j = none := by
  simp only [Mat.get, h.hm, h.hn, hij, if_false]

theorem Is.set {A : Mat K} {m n : Nat} {f} (h : A.Is m n f) {i j : Nat} (hi : i < m) (hj : j < n)
    (v : K) : A.set i j v = some (A.put i j v) := by
  simp [Mat.set, h.hm, h.hn, hi, hj, h.hlen, idx_lt hi hj]

theorem Is.set_none {A : Mat K} {m n : Nat} {f} (h : A.Is m n f) {i j : Nat}
    (hij : ¬(i < m ∧ j < n)) (v : K) : A.set i j v = none := by
  have : ¬(i < m ∧ j < n ∧ j * m + i < m * n) := fun h => hij ⟨h.1, h.2.1⟩
  simp only [Mat.set, h.hm, h.hn, h.hlen, this, if_false]

theorem Is.put {A : Mat K} {m n : Nat} {f} (h : A.Is m n f) {i j : Nat} (hi : i < m) (hj : j < n)
    (v : K) : (A.put i j v).Is m n (upd f i j v) := by
  refine ⟨h.hm, h.hn, by simp [Mat.put, h.hlen], ?_⟩
  intro a b ha hb
  simp only [Mat.put, h.hm, List.getElem?_set, h.hlen]
  by_cases e : a = i ∧ b = j
  · obtain ⟨rfl, rfl⟩ := e
    simp [idx_lt hi hj]
  · have : ¬ (j * m + i = b * m + a) := by
      intro he
      obtain ⟨h1, h2⟩ := idx_inj hi ha he
      exact e ⟨h1.symm, h2.symm⟩
    simp [this, upd_ne _ _ e, h.hget a b ha hb]

theorem Is.congr {A : Mat K} {m n : Nat} {f g} (h : A.Is m n f)
    (hfg : ∀ i j, i < m → j < n → f i j = g i j) : A.Is m n g :=
  ⟨h.hm, h.hn, h.hlen, fun i j hi hj => by rw [h.hget i j hi hj, hfg i j hi hj]⟩

theorem Is.unique {A : Mat K} {m n : Nat} {f g} (h : A.Is m n f) (h' : A.Is m n g)
    {i j : Nat} (hi : i < m) (hj : j < n) : f i j = g i j := by
  have := h.hget i j hi hj
  rw [h'.hget i j hi hj] at this
  exact (Option.some.inj this).symm

theorem Is.ext {A B : Mat K} {m n : Nat} {f g} (hA : A.Is m n f) (hB : B.Is m n g)
    (hfg : ∀ i j, i < m → j < n → f i j = g i j) : A = B := by
  have e : A.data = B.data := by
    apply List.ext_getElem?
    intro l
    by_cases hl : l < m * n
    · have hm : 0 < m := by
        rcases Nat.eq_zero_or_pos m with h0 | h0
        · subst h0; simp at hl
        · exact h0
      have h1 : l % m < m := Nat.mod_lt _ hm
      have h2 : l / m < n := Nat.div_lt_of_lt_mul hl
      have h3 : l / m * m + l % m = l := Nat.div_add_mod' l m
      have := hA.hget _ _ h1 h2
      have := hB.hget _ _ h1 h2
      simp_all
    · rw [List.getElem?_eq_none (by rw [hA.hlen]; omega),
        List.getElem?_eq_none (by rw [hB.hlen]; omega)]
  cases A; cases B
  simp only [Mat.mk.injEq]
  exact ⟨hA.hm.trans hB.hm.symm, hA.hn.trans hB.hn.symm, e⟩

/-- Every matrix object with a buffer of the right length is described by some entry function. -/
theorem exists_is [Inhabited K] {A : Mat K} (h : A.data.length = A.m * A.n) :
    ∃ f, A.Is A.m A.n f := by
  refine ⟨fun i j => A.data.getD (j * A.m + i) default, rfl, rfl, h, ?_⟩
  intro i j hi hj
  have := idx_lt hi hj
  rw [← h] at this
  simp [this]

/-- the matrix object with given entries -/
def ofFn (m n : Nat) (f : Nat → Nat → K) : Mat K :=
  ⟨m, n, (List.range (m * n)).map (fun l => f (l % m) (l / m))⟩

theorem ofFn_is (m n : Nat) (f : Nat → Nat → K) : (ofFn m n f).Is m n f := by
  refine ⟨rfl, rfl, by simp [ofFn], ?_⟩
  intro i j hi hj
  have h := idx_lt hi hj
  have hm : 0 < m := by omega
  have h1 : (j * m + i) / m = j := by
    rw [Nat.add_comm, Nat.add_mul_div_right _ _ hm, Nat.div_eq_of_lt hi]; simp
  have h2 : (j * m + i) % m = i := by
    rw [Nat.add_comm, Nat.add_mul_mod_self_right]; exact Nat.mod_eq_of_lt hi
  simp [ofFn, h, h1, h2]

end Mat

/-! ### `Repr` and `Is` -/

/-- extension of a finite matrix by zero -/
def extM [Zero K] {m n : Nat} (M : Matrix (Fin m) (Fin n) K) : Nat → Nat → K :=
  fun i j => if h : i < m ∧ j < n then M ⟨i, h.1⟩ ⟨j, h.2⟩ else 0

theorem extM_apply [Zero K] {m n : Nat} (M : Matrix (Fin m) (Fin n) K) (i : Fin m) (j : Fin n) :
    extM M i j = M i j := by
  simp [extM]

theorem extM_lt [Zero K] {m n : Nat} (M : Matrix (Fin m) (Fin n) K) {i j : Nat} (hi : i < m)
    (hj : j < n) : extM M i j = M ⟨i, hi⟩ ⟨j, hj⟩ := by
  simp [extM, hi, hj]

/-- finite matrix cut out of a function -/
def mx (m n : Nat) (f : Nat → Nat → K) : Matrix (Fin m) (Fin n) K := fun i j => f i j

@[simp] theorem mx_apply {m n : Nat} (f : Nat → Nat → K) (i : Fin m) (j : Fin n) :
    mx m n f i j = f i j := rfl

theorem Mat.Is.repr {A : Mat K} {m n : Nat} {f} (h : A.Is m n f) : Repr A (mx m n f) :=
  ⟨h.hm, h.hn, h.hlen, fun i j => h.get i.2 j.2⟩

theorem Mat.Is.repr_of {A : Mat K} {m n : Nat} {f} (h : A.Is m n f) {M : Matrix (Fin m) (Fin n) K}
    (hM : ∀ (i : Fin m) (j : Fin n), f i j = M i j) : Repr A M := by
  have := h.repr
  have e : mx m n f = M := by ext i j; exact hM i j
  rwa [e] at this

theorem Repr.is [Zero K] {m n : Nat} {A : Mat K} {M : Matrix (Fin m) (Fin n) K} (h : Repr A M) :
    A.Is m n (extM M) := by
  refine ⟨h.rows, h.cols, h.len, ?_⟩
  intro i j hi hj
  have := h.entry ⟨i, hi⟩ ⟨j, hj⟩
  simp only [Mat.get, h.rows, h.cols, hi, hj, and_self, if_true] at this
  rw [this, extM_lt M hi hj]

theorem Repr.ext {m n : Nat} {A B : Mat K} {M : Matrix (Fin m) (Fin n) K} [Zero K]
    (hA : Repr A M) (hB : Repr B M) : A = B :=
  hA.is.ext hB.is (fun _ _ _ _ => rfl)

theorem Repr.inj {m n : Nat} {A : Mat K} {M N : Matrix (Fin m) (Fin n) K}
    (hA : Repr A M) (hB : Repr A N) : M = N := by
  ext i j
  have := hA.entry i j
  rw [hB.entry i j] at this
  exact (Option.some.inj this).symm

/-- Every Mathlib matrix is represented by exactly one matrix object. -/
theorem exists_repr [Zero K] {m n : Nat} (M : Matrix (Fin m) (Fin n) K) :
    ∃ A : Mat K, Repr A M :=
  ⟨Mat.ofFn m n (extM M), (Mat.ofFn_is m n _).repr_of (fun i j => extM_apply M i j)⟩

/-! ### primitives -/
namespace Mat

theorem apply_is {A : Mat K} {m n : Nat} {f} (h : A.Is m n f) (g : K → K) :
    (A.apply g).Is m n (fun i j => g (f i j)) := by
  refine ⟨h.hm, h.hn, by simp [Mat.apply, h.hlen], ?_⟩
  intro i j hi hj
  simp [Mat.apply, h.hget i j hi hj]

section Ops
variable [Zero K] [One K] [Add K] [Sub K] [Mul K] [Div K]

theorem zero_is (m n : Nat) : (zero m n : Mat K).Is m n (fun _ _ => 0) := by
  refine ⟨rfl, rfl, by simp [zero], ?_⟩
  intro i j hi hj
  simp [zero, idx_lt hi hj]

theorem ones_is (m n : Nat) : (ones m n : Mat K).Is m n (fun _ _ => 1) := by
  refine ⟨rfl, rfl, by simp [ones], ?_⟩
  intro i j hi hj
  simp [ones, idx_lt hi hj]

theorem one_aux (n : Nat) (k : Nat) (hk : k ≤ n) :
    (⟨n, n, (List.range k).foldl (fun d i => d.set (i * n + i) 1)
      (List.replicate (n * n) 0)⟩ : Mat K).Is n n
      (fun i j => if i = j ∧ i < k then 1 else 0) := by
  induction k with
  | zero => simpa [zero] using zero_is (K := K) n n
  | succ k ih =>
    have h := (ih (by omega)).put (i := k) (j := k) (by omega) (by omega) 1
    have := h.congr (g := fun i j => if i = j ∧ i < k + 1 then 1 else 0) (by
      intro i j hi hj
      by_cases e : i = k ∧ j = k
      · obtain ⟨rfl, rfl⟩ := e; simp
      · rw [upd_ne _ _ e]
        by_cases e2 : i = j
        · subst e2
          have : i ≠ k := fun h => e ⟨h, h⟩
          have : (i < k) ↔ (i < k + 1) := by omega
          simp [this]
        · simp [e2])
    simpa [Mat.put, List.range_succ] using this

theorem one_is (n : Nat) : (one n : Mat K).Is n n (fun i j => if i = j then 1 else 0) :=
  (one_aux n n le_rfl).congr (by intro i j hi hj; simp [hi])

theorem add_is {A B : Mat K} {m n : Nat} {f g} (hA : A.Is m n f) (hB : B.Is m n g) :
    ∃ C, A.add B = some C ∧ C.Is m n (fun i j => f i j + g i j) := by
  refine ⟨⟨m, n, List.zipWith (· + ·) A.data B.data⟩, ?_, rfl, rfl, ?_, ?_⟩
  · simp [add, hA.hm, hA.hn, hB.hm, hB.hn]
  · simp [hA.hlen, hB.hlen]
  · intro i j hi hj
    simp [hA.hget i j hi hj, hB.hget i j hi hj, List.getElem?_zipWith]

theorem sub_is {A B : Mat K} {m n : Nat} {f g} (hA : A.Is m n f) (hB : B.Is m n g) :
    ∃ C, A.sub B = some C ∧ C.Is m n (fun i j => f i j - g i j) := by
  refine ⟨⟨m, n, List.zipWith (· - ·) A.data B.data⟩, ?_, rfl, rfl, ?_, ?_⟩
  · simp [sub, hA.hm, hA.hn, hB.hm, hB.hn]
  · simp [hA.hlen, hB.hlen]
  · intro i j hi hj
    simp [hA.hget i j hi hj, hB.hget i j hi hj, List.getElem?_zipWith]

theorem mulScalar_is {A : Mat K} {m n : Nat} {f} (h : A.Is m n f) (s : K) :
    (A.mulScalar s).Is m n (fun i j => f i j * s) := apply_is h _

end Ops

variable [Field K]

/-- an accumulation loop computes a finite sum -/
theorem sumLoop {a b : Nat} (g : Nat → K) (F : K → Nat → Option K) (s : K)
    (hF : ∀ s k, a ≤ k → k < b → F s k = some (s + g k)) :
    forRange a b F s = some (s + ∑ k ∈ Finset.Ico a b, g k) := by
  by_cases hab : a ≤ b
  · have := forRange_inv (fun k t => t = s + ∑ k ∈ Finset.Ico a k, g k) hab (f := F) (s := s)
      (by simp) (by
        intro i t h1 h2 h3
        refine ⟨_, hF t i h1 h2, ?_⟩
        rw [h3, Finset.sum_Ico_succ_top h1]; ring)
    obtain ⟨t, ht, h2⟩ := this
    rw [ht, h2]
  · rw [forRange_empty (by omega), Finset.Ico_eq_empty_of_le (by omega)]; simp

omit [Field K] in
/-- A double loop that writes `v i j` at every position produces the matrix `v`. -/
theorem fillLoop {m n : Nat} (v : Nat → Nat → K) {A : Mat K} {f} (hA : A.Is m n f)
    (F : Mat K → Nat → Nat → Option (Mat K))
    (hF : ∀ B i j, i < m → j < n → (∃ g, B.Is m n g) → F B i j = B.set i j (v i j)) :
    ∃ C, forRange 0 m (fun B i => forRange 0 n (fun B j => F B i j) B) A = some C ∧
      C.Is m n v := by
  have := forRange_inv (a := 0) (b := m) (s := A)
    (f := fun B i => forRange 0 n (fun B j => F B i j) B)
    (fun k B => B.Is m n (fun i j => if i < k then v i j else f i j)) (by omega)
    (by simpa using hA) (by
      intro i B _ hi hB
      have := forRange_inv (a := 0) (b := n) (s := B) (f := fun B j => F B i j)
        (fun k B => B.Is m n (fun a b => if a < i ∨ (a = i ∧ b < k) then v a b else f a b))
        (by omega) (by simpa using hB) (by
          intro j B' _ hj hB'
          refine ⟨_, (hF B' i j hi hj ⟨_, hB'⟩).trans (hB'.set hi hj _), ?_⟩
          refine (hB'.put hi hj _).congr ?_
          intro a b ha hb
          by_cases e : a = i ∧ b = j
          · obtain ⟨rfl, rfl⟩ := e; simp
          · rw [upd_ne _ _ e]
            have : (a < i ∨ a = i ∧ b < j) ↔ (a < i ∨ a = i ∧ b < j + 1) := by omega
            simp only [this])
      obtain ⟨C, hC, hC2⟩ := this
      refine ⟨C, hC, hC2.congr ?_⟩
      intro a b ha hb
      have : (a < i ∨ a = i ∧ b < n) ↔ a < i + 1 := by omega
      simp only [this])
  obtain ⟨C, hC, hC2⟩ := this
  exact ⟨C, hC, hC2.congr (by intro i j hi hj; simp [hi])⟩

theorem mul_is {A B : Mat K} {m n p : Nat} {f g} (hA : A.Is m n f) (hB : B.Is n p g) :
    ∃ C, A.mul B = some C ∧ C.Is m p (fun i j => ∑ k ∈ range n, f i k * g k j) := by
  have := fillLoop (fun i j => ∑ k ∈ range n, f i k * g k j) (zero_is (K := K) m p)
    (fun prod i j => do
        let sum ← forRange 0 A.n (fun sum k => do
          let a ← A.get i k
          let b ← B.get k j
          some (sum + a * b)) (0 : K)
        prod.set i j sum) (by
      intro C i j hi hj _
      have := sumLoop (a := 0) (b := n) (fun k => f i k * g k j)
        (fun sum k => do
          let a ← A.get i k
          let b ← B.get k j
          some (sum + a * b)) (0 : K) (by
          intro s k _ hk
          simp [hA.get hi hk, hB.get hk hj])
      simp only [hA.hn]
      rw [this]
      simp)
  obtain ⟨C, hC, h2⟩ := this
  refine ⟨C, ?_, h2⟩
  simp only [mul, hA.hn, hB.hm, if_true, hA.hm, hB.hn]
  simpa [hA.hn] using hC

theorem sum_fin (n : Nat) (f : Nat → K) : (∑ k : Fin n, f k) = ∑ k ∈ range n, f k :=
  Fin.sum_univ_eq_sum_range f n

end Mat

variable [Field K]

theorem repr_zero (m n : Nat) : Repr (Mat.zero m n : Mat K) (0 : Matrix (Fin m) (Fin n) K) :=
  (Mat.zero_is m n).repr_of (fun _ _ => rfl)

theorem repr_one (n : Nat) : Repr (Mat.one n : Mat K) (1 : Matrix (Fin n) (Fin n) K) :=
  (Mat.one_is n).repr_of (fun i j => by
    rw [Matrix.one_apply]; simp [Fin.ext_iff])

theorem repr_add {m n : Nat} {A B : Mat K} {M N : Matrix (Fin m) (Fin n) K} (hA : Repr A M)
    (hB : Repr B N) : ∃ C, A.add B = some C ∧ Repr C (M + N) := by
  obtain ⟨C, h1, h2⟩ := Mat.add_is hA.is hB.is
  exact ⟨C, h1, h2.repr_of (fun i j => by simp [extM_apply])⟩

theorem repr_sub {m n : Nat} {A B : Mat K} {M N : Matrix (Fin m) (Fin n) K} (hA : Repr A M)
    (hB : Repr B N) : ∃ C, A.sub B = some C ∧ Repr C (M - N) := by
  obtain ⟨C, h1, h2⟩ := Mat.sub_is hA.is hB.is
  exact ⟨C, h1, h2.repr_of (fun i j => by simp [extM_apply])⟩

theorem repr_mulScalar {m n : Nat} {A : Mat K} {M : Matrix (Fin m) (Fin n) K} (hA : Repr A M)
    (s : K) : Repr (A.mulScalar s) (s • M) :=
  (Mat.mulScalar_is hA.is s).repr_of (fun i j => by simp [extM_apply, mul_comm])

theorem repr_mul {m n p : Nat} {A B : Mat K} {M : Matrix (Fin m) (Fin n) K}
    {N : Matrix (Fin n) (Fin p) K} (hA : Repr A M)
    (hB : Repr B N) : ∃ C, A.mul B = some C ∧ Repr C (M * N) := by
  obtain ⟨C, h1, h2⟩ := Mat.mul_is hA.is hB.is
  refine ⟨C, h1, h2.repr_of (fun i j => ?_)⟩
  rw [Matrix.mul_apply, ← Mat.sum_fin]
  simp [extM_apply]

end Verif
