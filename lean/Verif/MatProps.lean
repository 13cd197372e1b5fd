import Verif.VecLemmas
import Mathlib.Data.Matrix.Basic
import Mathlib.LinearAlgebra.Matrix.Notation
import Mathlib.LinearAlgebra.Matrix.Trace
import Mathlib.Algebra.Field.Rat
import Mathlib.Tactic.FinCases
import Mathlib.Tactic.NormNum

/-!
# Properties of matrix storage and arithmetic: C01 – C09, C19, C20
-/

namespace Verif
variable {K : Type}

/-! ## Example matrices -/

/-- example object `[1 3; 0 -7]` -/
def exA : Mat ℚ := ⟨2, 2, [1, 0, 3, -7]⟩
/-- example object `[2 0 1; -1 4 5]` -/
def exB : Mat ℚ := ⟨2, 3, [2, -1, 0, 4, 1, 5]⟩

theorem exA_repr : Repr exA !![1, 3; 0, -7] :=
  ⟨rfl, rfl, rfl, by intro i j; fin_cases i <;> fin_cases j <;> rfl⟩
theorem exB_repr : Repr exB !![2, 0, 1; -1, 4, 5] :=
  ⟨rfl, rfl, rfl, by intro i j; fin_cases i <;> fin_cases j <;> rfl⟩

/-! ## C01 construction and access -/

/-- `Matrix::new` accepts exactly the buffers of length `m * n`. -/
theorem C01_new (m n : Nat) (data : List K) :
    (∃ A, Mat.new m n data = some A) ↔ data.length = m * n := by
  unfold Mat.new
  constructor
  · rintro ⟨A, h⟩
    by_contra hne
    rw [if_neg (fun h => hne h.symm)] at h
    cases h
  · intro h
    exact ⟨_, if_pos h.symm⟩

/-- After `Matrix::new` the dimensions are the given ones, `get(i,j)` is the buffer element `j*m+i` for every
    valid index pair and panics for every other. -/
theorem C01_get {m n : Nat} {data : List K} {A : Mat K} (h : Mat.new m n data = some A) :
    A.m = m ∧ A.n = n ∧
    (∀ i j, i < m → j < n → ∃ hk : j * m + i < data.length, A.get i j = some data[j * m + i]) ∧
    (∀ i j, ¬ (i < m ∧ j < n) → A.get i j = none) := by
  unfold Mat.new at h
  by_cases hl : m * n = data.length
  · rw [if_pos hl] at h
    cases h
    refine ⟨rfl, rfl, ?_, ?_⟩
    · intro i j hi hj
      have : j * m + i < data.length := by rw [← hl]; exact idx_lt hi hj
      refine ⟨this, ?_⟩
      simp [Mat.get, hi, hj, this]
    · intro i j hij
      simp only [Mat.get, hij, if_false]
  · rw [if_neg hl] at h; cases h

/-- Writing through `get_mut(i,j)`: reads back, changes nothing else. -/
theorem C01_set {A : Mat K} (hlen : A.data.length = A.m * A.n) (i j : Nat) (v : K) :
    (i < A.m ∧ j < A.n → ∃ B, A.set i j v = some B ∧ B.m = A.m ∧ B.n = A.n ∧
      B.data.length = A.data.length ∧ B.get i j = some v ∧
      ∀ a b, (a, b) ≠ (i, j) → B.get a b = A.get a b) ∧
    (¬ (i < A.m ∧ j < A.n) → A.set i j v = none) := by
  have : Inhabited K := ⟨v⟩
  obtain ⟨f, hf⟩ := Mat.exists_is hlen
  constructor
  · rintro ⟨hi, hj⟩
    have hp := hf.put hi hj v
    refine ⟨_, hf.set hi hj v, rfl, rfl, by simp [Mat.put], ?_, ?_⟩
    · rw [hp.get hi hj, upd_same]
    · intro a b hab
      by_cases hv : a < A.m ∧ b < A.n
      · rw [hp.get hv.1 hv.2, hf.get hv.1 hv.2, upd_ne]
        rintro ⟨rfl, rfl⟩; exact hab rfl
      · rw [hp.get_none hv, hf.get_none hv]
  · intro h
    exact hf.set_none h v

example : Mat.new 2 2 [(1 : ℚ), 0, 3, -7] = some exA ∧ exA.get 0 1 = some 3 ∧
    exA.get 2 0 = none := by decide
example : exA.set 1 0 5 = some ⟨2, 2, [1, 5, 3, -7]⟩ ∧ exA.set 0 2 5 = none := by decide

/-! ## C02 addition and subtraction -/
section Field
variable [Field K]

/-- `A + B` is the matrix sum. -/
theorem C02_add {m n : Nat} {A B : Mat K} {M N : Matrix (Fin m) (Fin n) K} (hA : Repr A M)
    (hB : Repr B N) : ∃ C, A.add B = some C ∧ Repr C (M + N) := repr_add hA hB

/-- `A - B` is the matrix difference. -/
theorem C02_sub {m n : Nat} {A B : Mat K} {M N : Matrix (Fin m) (Fin n) K} (hA : Repr A M)
    (hB : Repr B N) : ∃ C, A.sub B = some C ∧ Repr C (M - N) := repr_sub hA hB

/-- Both panic exactly when the dimensions differ. -/
theorem C02_panic (A B : Mat K) :
    (A.add B = none ↔ (A.m, A.n) ≠ (B.m, B.n)) ∧ (A.sub B = none ↔ (A.m, A.n) ≠ (B.m, B.n)) := by
  simp [Mat.add, Mat.sub]

/-- Laws on matrix objects: commutativity, associativity, neutral element, cancellation. -/
theorem C02_laws {m n : Nat} {A B C : Mat K} {L M N : Matrix (Fin m) (Fin n) K} (hA : Repr A L)
    (hB : Repr B M) (hC : Repr C N) :
    A.add B = B.add A ∧
    ((A.add B).bind (fun X => X.add C)) = ((B.add C).bind (fun X => A.add X)) ∧
    A.add (Mat.zero m n) = some A ∧
    ((A.sub B).bind (fun X => X.add B)) = some A := by
  obtain ⟨AB, h1, r1⟩ := repr_add hA hB
  obtain ⟨BA, h2, r2⟩ := repr_add hB hA
  obtain ⟨BC, h3, r3⟩ := repr_add hB hC
  obtain ⟨ABC, h4, r4⟩ := repr_add r1 hC
  obtain ⟨ABC', h5, r5⟩ := repr_add hA r3
  obtain ⟨A0, h6, r6⟩ := repr_add hA (repr_zero m n)
  obtain ⟨D, h7, r7⟩ := repr_sub hA hB
  obtain ⟨E, h8, r8⟩ := repr_add r7 hB
  refine ⟨?_, ?_, ?_, ?_⟩
  · rw [h1, h2]; congr 1; rw [add_comm] at r1; exact r1.ext r2
  · rw [h1, h3, Option.bind_some, Option.bind_some, h4, h5]; congr 1
    rw [add_assoc] at r4; exact r4.ext r5
  · rw [h6]; congr 1; rw [add_zero] at r6; exact r6.ext hA
  · rw [h7, Option.bind_some, h8]; congr 1; rw [sub_add_cancel] at r8; exact r8.ext hA

example : exA.add exA = some ⟨2, 2, [2, 0, 6, -14]⟩ ∧ exA.add exB = none ∧
    exA.sub exA = some (Mat.zero 2 2) := by decide +kernel
example : ∃ C, exA.add exA = some C ∧ Repr C (!![1, 3; 0, -7] + !![1, 3; 0, -7]) :=
  C02_add exA_repr exA_repr

/-! ## C03 multiplication -/

/-- `A * B` is the matrix product. -/
theorem C03_mul {m n p : Nat} {A B : Mat K} {M : Matrix (Fin m) (Fin n) K}
    {N : Matrix (Fin n) (Fin p) K} (hA : Repr A M) (hB : Repr B N) :
    ∃ C, A.mul B = some C ∧ Repr C (M * N) := repr_mul hA hB

/-- It panics exactly when the inner dimensions differ. -/
theorem C03_panic {m n p q : Nat} {A B : Mat K} {M : Matrix (Fin m) (Fin n) K}
    {N : Matrix (Fin p) (Fin q) K} (hA : Repr A M) (hB : Repr B N) :
    A.mul B = none ↔ n ≠ p := by
  constructor
  · intro h hnp
    subst hnp
    obtain ⟨C, h1, _⟩ := repr_mul hA hB
    rw [h1] at h; cases h
  · intro h
    have : ¬ A.n = B.m := by rw [hA.cols, hB.rows]; exact h
    simp [Mat.mul, this]

/-- Laws on matrix objects: associativity, distributivity, neutral element. -/
theorem C03_laws {m n p q : Nat} {A B B' C : Mat K} {L : Matrix (Fin m) (Fin n) K}
    {M M' : Matrix (Fin n) (Fin p) K} {N : Matrix (Fin p) (Fin q) K} (hA : Repr A L)
    (hB : Repr B M) (hB' : Repr B' M') (hC : Repr C N) :
    ((A.mul B).bind (fun X => X.mul C)) = ((B.mul C).bind (fun X => A.mul X)) ∧
    ((B.add B').bind (fun X => A.mul X)) =
      ((A.mul B).bind (fun X => (A.mul B').bind (fun Y => X.add Y))) ∧
    (Mat.one m).mul A = some A ∧ A.mul (Mat.one n) = some A := by
  obtain ⟨AB, h1, r1⟩ := repr_mul hA hB
  obtain ⟨AB', h1', r1'⟩ := repr_mul hA hB'
  obtain ⟨BC, h2, r2⟩ := repr_mul hB hC
  obtain ⟨ABC, h3, r3⟩ := repr_mul r1 hC
  obtain ⟨ABC', h4, r4⟩ := repr_mul hA r2
  obtain ⟨S, h5, r5⟩ := repr_add hB hB'
  obtain ⟨AS, h6, r6⟩ := repr_mul hA r5
  obtain ⟨T, h7, r7⟩ := repr_add r1 r1'
  obtain ⟨U, h8, r8⟩ := repr_mul (repr_one m) hA
  obtain ⟨V, h9, r9⟩ := repr_mul hA (repr_one n)
  refine ⟨?_, ?_, ?_, ?_⟩
  · rw [h1, h2, Option.bind_some, Option.bind_some, h3, h4]; congr 1
    rw [Matrix.mul_assoc] at r3; exact r3.ext r4
  · rw [h1, h1', h5, Option.bind_some, Option.bind_some, Option.bind_some, h6, h7]; congr 1
    rw [Matrix.mul_add] at r6; exact r6.ext r7
  · rw [h8]; congr 1; rw [Matrix.one_mul] at r8; exact r8.ext hA
  · rw [h9]; congr 1; rw [Matrix.mul_one] at r9; exact r9.ext hA

example : exA.mul exB = some ⟨2, 3, [-1, 7, 12, -28, 16, -35]⟩ ∧ exB.mul exA = none := by
  decide +kernel
example : ∃ C, exA.mul exB = some C ∧ Repr C ((!![1, 3; 0, -7] : Matrix (Fin 2) (Fin 2) ℚ) *
    (!![2, 0, 1; -1, 4, 5] : Matrix (Fin 2) (Fin 3) ℚ)) :=
  C03_mul exA_repr exB_repr

/-! ## C04 scalar operations -/

/-- `A + s`, `A - s`, `A * s`, `A / s` act on every entry. -/
theorem C04_scalar [DecidableEq K] {m n : Nat} {A : Mat K} {M : Matrix (Fin m) (Fin n) K}
    (hA : Repr A M) (s : K) :
    Repr (A.addScalar s) (fun i j => M i j + s) ∧ Repr (A.subScalar s) (fun i j => M i j - s) ∧
    Repr (A.mulScalar s) (fun i j => M i j * s) ∧
    (s ≠ 0 → ∃ B, A.divScalar s = some B ∧ Repr B (fun i j => M i j / s)) := by
  refine ⟨?_, ?_, ?_, ?_⟩
  · exact (Mat.apply_is hA.is _).repr_of (fun i j => by simp [extM_apply])
  · exact (Mat.apply_is hA.is _).repr_of (fun i j => by simp [extM_apply])
  · exact (Mat.apply_is hA.is _).repr_of (fun i j => by simp [extM_apply])
  · intro hs
    refine ⟨_, if_neg hs, (Mat.apply_is hA.is _).repr_of (fun i j => ?_)⟩
    simp [extM_apply, div_eq_mul_inv]

/-- `A * s / s` returns `A` for every nonzero `s`. -/
theorem C04_mul_div [DecidableEq K] (A : Mat K) {s : K} (hs : s ≠ 0) :
    (A.mulScalar s).divScalar s = some A := by
  simp only [Mat.divScalar, hs, if_false, Mat.mulScalar, Mat.apply, List.map_map]
  have : ((fun x => x * (1 / s)) ∘ fun x => x * s) = id := by
    funext x; simp [hs]
  rw [this, List.map_id]

example : exA.divScalar 2 = some ⟨2, 2, [1/2, 0, 3/2, -7/2]⟩ ∧
    exB.addScalar 3 = ⟨2, 3, [5, 2, 3, 7, 4, 8]⟩ := by decide +kernel
example : (exA.mulScalar 5).divScalar 5 = some exA := C04_mul_div exA (by norm_num)

/-! ## C05 transpose -/

/-- Partial: square matrices and row/column vectors are transposed correctly, whatever the uninitialised
    scratch buffer contains.  Missing: every other shape, where the code is wrong (`C05_shape_iff`). -/
theorem C05_transpose_partial (junk : Nat → K) {m n : Nat} {A : Mat K}
    {M : Matrix (Fin m) (Fin n) K} (hA : Repr A M) (hs : m = n ∨ m = 1 ∨ n = 1)
    (h0 : ¬ (m = 0 ∧ n = 0)) :
    ∃ B, A.transposeWith junk = some B ∧ Repr B M.transpose := by
  obtain ⟨B, h1, h2⟩ := Mat.transposeWith_is junk hA.is hs (by omega)
  exact ⟨B, h1, h2.repr_of (fun i j => by simp [extM_apply])⟩

/-- Transposing twice returns the original matrix, for every shape except 0×0. -/
theorem C05_twice_partial (junk junk' : Nat → K) {A : Mat K} (hlen : A.data.length = A.m * A.n)
    (h0 : ¬ (A.m = 0 ∧ A.n = 0)) :
    ((A.transposeWith junk).bind (fun B => B.transposeWith junk')) = some A := by
  have : Inhabited K := ⟨0⟩
  obtain ⟨f, hf⟩ := Mat.exists_is hlen
  obtain ⟨B, h1, h2, h3⟩ := Mat.transposeWith_linear junk hlen (by omega)
  obtain ⟨C, k1, k2, k3⟩ := Mat.transposeWith_linear junk' (A := ⟨A.n, A.m, B⟩)
    (by simp [h2, Nat.mul_comm]) (by simp only; omega)
  rw [h1, Option.bind_some, k1]
  simp only at k1 k2 k3 ⊢
  congr 1
  have hC : (⟨A.m, A.n, C⟩ : Mat K).Is A.m A.n f := by
    refine ⟨rfl, rfl, by simp [k2, Nat.mul_comm], ?_⟩
    intro i j hi hj
    -- position of (i, j) in the buffer, written in base `n`
    have hL := idx_lt hi hj
    have hn0 : 0 < A.n := by omega
    have e : (j * A.m + i) / A.n * A.n + (j * A.m + i) % A.n = j * A.m + i :=
      Nat.div_add_mod' _ _
    have ha : (j * A.m + i) % A.n < A.n := Nat.mod_lt _ hn0
    have hb : (j * A.m + i) / A.n < A.m := Nat.div_lt_of_lt_mul (by rwa [Nat.mul_comm A.n])
    have := k3 _ _ ha hb
    rw [e] at this
    simp only
    rw [this, h3 _ _ hb ha, e]
    exact hf.hget i j hi hj
  exact hC.ext hf (fun _ _ _ _ => rfl)

/-- The code transposes all `m × n` matrices correctly if and only if the shape is square or a vector. -/
theorem C05_shape_iff {m n : Nat} (hm : 1 ≤ m) (hn : 1 ≤ n) :
    (∀ (A : Mat K) (M : Matrix (Fin m) (Fin n) K), Repr A M →
      ∃ B, A.transpose = some B ∧ Repr B M.transpose) ↔ (m = n ∨ m = 1 ∨ n = 1) := by
  constructor
  · intro h
    by_contra hc
    have h1 : m ≠ n := by omega
    have h2 : 2 ≤ m := by omega
    have h3 : 2 ≤ n := by omega
    -- the matrix with a single one at buffer position `m`
    have hA := Mat.ofFn_is m n (fun i j => if i = 0 ∧ j = 1 then (1 : K) else 0)
    obtain ⟨B, hB, hB2⟩ := h _ _ hA.repr
    obtain ⟨C, k1, k2, k3⟩ := Mat.transposeWith_data (fun _ => 0) hA (by omega)
    unfold Mat.transpose at hB
    rw [k1] at hB
    cases hB
    have e1 := hB2.entry ⟨1, by omega⟩ ⟨0, by omega⟩
    simp only [Mat.get, Matrix.transpose_apply, mx_apply] at e1
    rw [if_pos (by omega)] at e1
    have e2 := k3 1 0 (by omega) (by omega)
    simp only [Nat.zero_mul, Nat.zero_add, Nat.one_mul, Nat.add_zero] at e1 e2
    rw [e2] at e1
    have e3 : ¬ (n % m = 0 ∧ n / m = 1) := by
      rintro ⟨a, b⟩
      have := Nat.div_add_mod n m
      rw [a, b] at this
      omega
    simp [e3] at e1
  · intro h A M hA
    exact C05_transpose_partial _ hA h (by omega)

/-- The property fails: the 2×3 matrix `[1 2 3; 4 5 6]` is not transposed, and a 0×0 matrix panics. -/
theorem C05_transpose_violated :
    (⟨2, 3, [1, 4, 2, 5, 3, 6]⟩ : Mat ℚ).transpose = some ⟨3, 2, [1, 5, 4, 3, 2, 6]⟩ ∧
    ¬ Repr (⟨3, 2, [1, 5, 4, 3, 2, 6]⟩ : Mat ℚ) (!![1, 2, 3; 4, 5, 6] : Matrix _ _ ℚ).transpose ∧
    (⟨0, 0, []⟩ : Mat ℚ).transpose = none := by
  refine ⟨by decide +kernel, ?_, by decide +kernel⟩
  intro h
  have := h.entry 1 0
  simp [Mat.get] at this

example : exA.transpose = some ⟨2, 2, [1, 3, 0, -7]⟩ ∧
    (⟨3, 1, [1, 2, 3]⟩ : Mat ℚ).transpose = some ⟨1, 3, [1, 2, 3]⟩ := by decide +kernel

/-! ## C06 rows and columns -/

/-- `get_row(i)` / `get_column(j)` return row `i` / column `j`. -/
theorem C06_get {m n : Nat} {A : Mat K} {M : Matrix (Fin m) (Fin n) K} (hA : Repr A M) :
    (∀ i : Fin m, ∃ v, A.getRow i = some v ∧ RowRepr v (fun j => M i j)) ∧
    (∀ j : Fin n, ∃ v, A.getColumn j = some v ∧ ColRepr v (fun i => M i j)) ∧
    (∀ i, m ≤ i → A.getRow i = none) ∧ (∀ j, n ≤ j → A.getColumn j = none) := by
  refine ⟨?_, ?_, ?_, ?_⟩
  · intro i
    obtain ⟨v, h1, h2⟩ := Mat.getRow_is hA.is i.2
    exact ⟨v, h1, h2.rowRepr_of (fun j => extM_apply M i j)⟩
  · intro j
    obtain ⟨v, h1, h2⟩ := Mat.getColumn_is hA.is j.2
    exact ⟨v, h1, h2.colRepr_of (fun i => extM_apply M i j)⟩
  · intro i hi
    have : ¬ i < A.m := by rw [hA.rows]; omega
    simp [Mat.getRow, this]
  · intro i hi
    have : ¬ i < A.n := by rw [hA.cols]; omega
    simp [Mat.getColumn, this]

/-- `set_row` / `set_column` replace exactly that row / column. -/
theorem C06_set {m n : Nat} {A : Mat K} {M : Matrix (Fin m) (Fin n) K} (hA : Repr A M) :
    (∀ (i : Fin m) (v : Mat K) (x : Fin n → K), RowRepr v x →
      ∃ B, A.setRow v i = some B ∧ Repr B (M.updateRow i x) ∧ B.getRow i = some v) ∧
    (∀ (j : Fin n) (v : Mat K) (x : Fin m → K), ColRepr v x →
      ∃ B, A.setColumn v j = some B ∧ Repr B (M.updateCol j x) ∧ B.getColumn j = some v) := by
  constructor
  · intro i v x hv
    obtain ⟨B, h1, h2⟩ := Mat.setRow_is hA.is hv.is i.2
    have h3 : Repr B (M.updateRow i x) := h2.repr_of (by
      intro a b
      rw [Matrix.updateRow_apply]
      simp only [Fin.ext_iff, extM_apply, extV_apply])
    obtain ⟨w, h4, h5⟩ := (C06_get h3).1 i
    refine ⟨B, h1, h3, ?_⟩
    rw [h4, h5, hv]
    congr; funext j; simp
  · intro j v x hv
    obtain ⟨B, h1, h2⟩ := Mat.setColumn_is hA.is hv.is j.2
    have h3 : Repr B (M.updateCol j x) := h2.repr_of (by
      intro a b
      rw [Matrix.updateCol_apply]
      simp only [Fin.ext_iff, extM_apply, extV_apply])
    obtain ⟨w, h4, h5⟩ := (C06_get h3).2.1 j
    refine ⟨B, h1, h3, ?_⟩
    rw [h4, h5, hv]
    congr; funext j; simp

/-- Panics of the setters: a vector with the wrong extent panics; an out-of-range index panics whenever there
    is an entry to write.  Missing: see `C06_violated`. -/
theorem C06_set_panic_partial {m n : Nat} {A : Mat K} {M : Matrix (Fin m) (Fin n) K} (hA : Repr A M)
    (v : Mat K) (i : Nat) :
    (v.n ≠ n → A.setRow v i = none) ∧ (v.m ≠ m → A.setColumn v i = none) ∧
    (m ≤ i → 0 < n → A.setRow v i = none) ∧ (n ≤ i → 0 < m → A.setColumn v i = none) := by
  refine ⟨?_, ?_, ?_, ?_⟩
  · intro h; simp [Mat.setRow, hA.cols, h]
  · intro h; simp [Mat.setColumn, hA.rows, h]
  · intro h h0
    unfold Mat.setRow
    split
    · rfl
    · apply forRange_none (by rw [hA.cols]; exact h0)
      cases v.vget 0 with
      | none => rfl
      | some x =>
        have : ¬ (i < m ∧ 0 < n) := by omega
        simpa using hA.is.set_none this x
  · intro h h0
    unfold Mat.setColumn
    split
    · rfl
    · apply forRange_none (by rw [hA.rows]; exact h0)
      cases v.vget 0 with
      | none => rfl
      | some x =>
        have : ¬ (0 < m ∧ i < n) := by omega
        simpa using hA.is.set_none this x

/-- The panic part fails: `set_row` accepts a 3-element column vector as the row of a 2×1 matrix, and an
    out-of-range row index on a matrix without columns does not panic. -/
theorem C06_violated :
    (⟨2, 1, [1, 2]⟩ : Mat ℚ).setRow ⟨3, 1, [7, 8, 9]⟩ 0 = some ⟨2, 1, [7, 2]⟩ ∧
    (⟨2, 0, []⟩ : Mat ℚ).setRow ⟨1, 0, []⟩ 5 = some ⟨2, 0, []⟩ := by decide +kernel

example : exB.getRow 1 = some ⟨1, 3, [-1, 4, 5]⟩ ∧ exB.getColumn 2 = some ⟨2, 1, [1, 5]⟩ ∧
    exB.setRow ⟨1, 3, [7, 8, 9]⟩ 0 = some ⟨2, 3, [7, -1, 8, 4, 9, 5]⟩ := by decide +kernel

/-! ## C07 slices -/

/-- `get_slice(r1,r2,c1,c2)` returns the inclusive block. -/
theorem C07_get {m n r1 r2 c1 c2 : Nat} {A : Mat K} {M : Matrix (Fin m) (Fin n) K} (hA : Repr A M)
    (hr : r1 ≤ r2) (hr2 : r2 < m) (hc : c1 ≤ c2) (hc2 : c2 < n) :
    ∃ S, A.getSlice r1 r2 c1 c2 = some S ∧
      Repr S (fun (i : Fin (r2 - r1 + 1)) (j : Fin (c2 - c1 + 1)) =>
        M ⟨r1 + i, by omega⟩ ⟨c1 + j, by omega⟩) := by
  obtain ⟨S, h1, h2⟩ := Mat.getSlice_is hA.is hr hc hr2 hc2
  exact ⟨S, h1, h2.repr_of (fun i j => extM_lt M _ _)⟩

/-- `get_slice` panics on every other argument. -/
theorem C07_get_panic {m n : Nat} {A : Mat K} {M : Matrix (Fin m) (Fin n) K} (hA : Repr A M)
    (r1 r2 c1 c2 : Nat) (h : ¬ (r1 ≤ r2 ∧ r2 < m ∧ c1 ≤ c2 ∧ c2 < n)) :
    A.getSlice r1 r2 c1 c2 = none := by
  unfold Mat.getSlice
  rw [if_neg]
  rw [hA.rows, hA.cols]
  omega

/-- `set_slice(S,r,c)` overwrites exactly the block starting at `(r,c)`; reading the block back gives `S`
    (for nonempty `S`); writing back what was read changes nothing. -/
theorem C07_set {m n p q r c : Nat} {A S : Mat K} {M : Matrix (Fin m) (Fin n) K}
    {N : Matrix (Fin p) (Fin q) K} (hA : Repr A M) (hS : Repr S N) (hr : r + p ≤ m)
    (hc : c + q ≤ n) :
    ∃ B, A.setSlice S r c = some B ∧
      Repr B (fun i j => if h : (r ≤ i ∧ i < r + p) ∧ (c ≤ j ∧ j < c + q) then
        N ⟨i - r, by omega⟩ ⟨j - c, by omega⟩ else M i j) ∧
      (0 < p → 0 < q → B.getSlice r (r + p - 1) c (c + q - 1) = some S) := by
  obtain ⟨B, h1, h2⟩ := Mat.setSlice_is hA.is hS.is hr hc
  refine ⟨B, h1, h2.repr_of ?_, ?_⟩
  · intro i j
    by_cases h : (r ≤ i ∧ i < r + p) ∧ (c ≤ j ∧ j < c + q)
    · rw [dif_pos h, if_pos (by tauto), extM_lt]
    · rw [dif_neg h, if_neg (by tauto), extM_apply]
  · intro hp hq
    obtain ⟨S', h3, h4⟩ := Mat.getSlice_is (r1 := r) (r2 := r + p - 1) (c1 := c)
      (c2 := c + q - 1) h2 (by omega) (by omega) (by omega) (by omega)
    rw [h3]
    congr 1
    have e1 : r + p - 1 - r + 1 = p := by omega
    have e2 : c + q - 1 - c + 1 = q := by omega
    rw [e1, e2] at h4
    refine h4.ext hS.is ?_
    intro i j hi hj
    rw [if_pos (by omega)]
    congr 1 <;> omega

/-- Writing back a block that was read leaves the matrix unchanged. -/
theorem C07_set_get {m n r1 r2 c1 c2 : Nat} {A : Mat K} {M : Matrix (Fin m) (Fin n) K}
    (hA : Repr A M) (hr : r1 ≤ r2) (hr2 : r2 < m) (hc : c1 ≤ c2) (hc2 : c2 < n) :
    ((A.getSlice r1 r2 c1 c2).bind (fun S => A.setSlice S r1 c1)) = some A := by
  obtain ⟨S, h1, h2⟩ := Mat.getSlice_is hA.is hr hc hr2 hc2
  obtain ⟨B, h3, h4⟩ := Mat.setSlice_is (r := r1) (c := c1) hA.is h2 (by omega) (by omega)
  rw [h1, Option.bind_some, h3]
  congr 1
  refine h4.ext hA.is ?_
  intro i j hi hj
  split
  · congr 1 <;> omega
  · rfl

example : exB.getSlice 0 1 1 2 = some ⟨2, 2, [0, 4, 1, 5]⟩ ∧
    exB.setSlice exA 0 1 = some ⟨2, 3, [2, -1, 1, 0, 3, -7]⟩ ∧ exB.getSlice 1 0 0 0 = none := by
  decide +kernel

/-! ## C08 swap_rows -/

/-- `swap_rows(i,j)` permutes the rows by the transposition `(i j)`. -/
theorem C08_swap {m n : Nat} {A : Mat K} {M : Matrix (Fin m) (Fin n) K} (hA : Repr A M)
    (i j : Fin m) : ∃ B, A.swapRows i j = some B ∧
      Repr B (fun a b => M (Equiv.swap i j a) b) ∧ B.swapRows i j = some A := by
  obtain ⟨B, h1, h2⟩ := Mat.swapRows_is hA.is i.2 j.2
  refine ⟨B, h1, h2.repr_of ?_, ?_⟩
  · intro a b
    rw [Equiv.swap_apply_def]
    simp only [Fin.ext_iff, extM_apply]
    split_ifs <;> rfl
  · obtain ⟨C, h3, h4⟩ := Mat.swapRows_is h2 i.2 j.2
    rw [h3]
    congr 1
    refine h4.ext hA.is ?_
    intro a b ha hb
    by_cases e1 : a = i
    · subst e1
      by_cases e2 : (j : Nat) = i
      · simp [e2]
      · simp [e2]
    · by_cases e2 : a = j
      · subst e2; simp [e1]
      · simp [e1, e2]

/-- `i = j` is a no-op. -/
theorem C08_same {m n : Nat} {A : Mat K} {M : Matrix (Fin m) (Fin n) K} (hA : Repr A M)
    (i : Fin m) : A.swapRows i i = some A := by
  obtain ⟨B, h1, h2, _⟩ := C08_swap hA i i
  rw [h1]; congr 1
  refine h2.ext ?_
  have : (fun (a : Fin m) (b : Fin n) => M (Equiv.swap i i a) b) = M := by
    ext a b; simp
  rw [this]; exact hA

example : exB.swapRows 0 1 = some ⟨2, 3, [-1, 2, 4, 0, 5, 1]⟩ := by decide +kernel

/-! ## C09 trace -/

/-- `trace` is the sum of the diagonal; it panics exactly on non-square matrices. -/
theorem C09_trace {n : Nat} {A : Mat K} {M : Matrix (Fin n) (Fin n) K} (hA : Repr A M) :
    A.trace = some M.trace := by
  rw [Mat.trace_is hA.is, Matrix.trace, ← Mat.sum_fin]
  simp [extM_apply]

theorem C09_panic (A : Mat K) (h : A.m ≠ A.n) : A.trace = none := by simp [Mat.trace, h]

/-- The trace of `A*B` equals that of `B*A`, and trace is additive. -/
theorem C09_laws {m n : Nat} {A B : Mat K} {M : Matrix (Fin m) (Fin n) K}
    {N : Matrix (Fin n) (Fin m) K} (hA : Repr A M) (hB : Repr B N) {C D : Mat K}
    {P Q : Matrix (Fin m) (Fin m) K} (hC : Repr C P) (hD : Repr D Q) :
    ((A.mul B).bind Mat.trace) = ((B.mul A).bind Mat.trace) ∧ (A.mul B).bind Mat.trace ≠ none ∧
    ((C.add D).bind Mat.trace) = (C.trace.bind fun x => D.trace.map fun y => x + y) := by
  obtain ⟨X, h1, r1⟩ := repr_mul hA hB
  obtain ⟨Y, h2, r2⟩ := repr_mul hB hA
  obtain ⟨Z, h3, r3⟩ := repr_add hC hD
  simp only [h1, h2, h3, Option.bind_some, C09_trace r1, C09_trace r2, C09_trace r3,
    C09_trace hC, C09_trace hD, Matrix.trace_add]
  refine ⟨?_, by simp, by simp⟩
  rw [Matrix.trace_mul_comm]

example : exA.trace = some (-6) ∧ exB.trace = none := by decide +kernel

/-! ## C20 iterators -/

/-- Draining an indexed iterator. -/
theorem drain_indexed {α : Type} (n : Nat) (item : Nat → α) (next : Nat → Option (Option (α × Nat)))
    (h1 : ∀ i, i < n → next i = some (some (item i, i + 1))) (h2 : next n = some none)
    (k : Nat) (hk : k ≤ n) (fuel : Nat) (hf : n - k < fuel) :
    Mat.drain next fuel k = some ((List.range' k (n - k)).map item) := by
  induction fuel generalizing k with
  | zero => omega
  | succ fuel ih =>
    by_cases e : k = n
    · subst e; simp [Mat.drain, h2]
    · have hlt : k < n := by omega
      have := ih (k + 1) (by omega) (by omega)
      obtain ⟨d, hd⟩ : ∃ d, n - k = d + 1 := ⟨n - k - 1, by omega⟩
      have hd2 : n - (k + 1) = d := by omega
      rw [hd2] at this
      simp [Mat.drain, h1 k hlt, this, hd, List.range'_succ]

/-- `row_into_iter` yields exactly the rows, in order, and then stops (and stays stopped). -/
theorem C20_rows {m n : Nat} {A : Mat K} {M : Matrix (Fin m) (Fin n) K} (hA : Repr A M)
    {fuel : Nat} (hf : m < fuel) :
    (∃ rows, Mat.drain A.rowNext fuel 0 = some rows ∧ rows.length = m ∧
      ∀ i : Fin m, ∃ v, rows[(i : Nat)]? = some v ∧ RowRepr v (fun j => M i j)) ∧
    ∀ k, m ≤ k → A.rowNext k = some none := by
  have hlast : ∀ k, m ≤ k → A.rowNext k = some none := by
    intro k hk
    have : ¬ k < A.m := by rw [hA.rows]; omega
    simp [Mat.rowNext, this]
  refine ⟨?_, hlast⟩
  have hr : ∀ i, i < m → ∃ v, A.getRow i = some v ∧ v.Is 1 n (fun _ j => extM M i j) :=
    fun i hi => Mat.getRow_is hA.is hi
  choose! item h1 h2 using hr
  have := drain_indexed m item A.rowNext (by
    intro i hi
    have : i < A.m := by rw [hA.rows]; exact hi
    simp [Mat.rowNext, this, h1 i hi]) (hlast m (le_refl _)) 0 (by omega) fuel (by omega)
  refine ⟨_, this, by simp, ?_⟩
  intro i
  refine ⟨item i, by simp, (h2 i i.2).rowRepr_of (fun j => extM_apply M i j)⟩

/-- `column_into_iter` yields exactly the columns, in order, and then stops. -/
theorem C20_columns {m n : Nat} {A : Mat K} {M : Matrix (Fin m) (Fin n) K} (hA : Repr A M)
    {fuel : Nat} (hf : n < fuel) :
    (∃ cols, Mat.drain A.columnNext fuel 0 = some cols ∧ cols.length = n ∧
      ∀ j : Fin n, ∃ v, cols[(j : Nat)]? = some v ∧ ColRepr v (fun i => M i j)) ∧
    ∀ k, n ≤ k → A.columnNext k = some none := by
  have hlast : ∀ k, n ≤ k → A.columnNext k = some none := by
    intro k hk
    have : ¬ k < A.n := by rw [hA.cols]; omega
    simp [Mat.columnNext, this]
  refine ⟨?_, hlast⟩
  have hr : ∀ j, j < n → ∃ v, A.getColumn j = some v ∧ v.Is m 1 (fun i _ => extM M i j) :=
    fun j hj => Mat.getColumn_is hA.is hj
  choose! item h1 h2 using hr
  have := drain_indexed n item A.columnNext (by
    intro i hi
    have : i < A.n := by rw [hA.cols]; exact hi
    simp [Mat.columnNext, this, h1 i hi]) (hlast n (le_refl _)) 0 (by omega) fuel (by omega)
  refine ⟨_, this, by simp, ?_⟩
  intro j
  refine ⟨item j, by simp, (h2 j j.2).colRepr_of (fun i => extM_apply M i j)⟩

example : Mat.drain exB.rowNext 3 0 = some [⟨1, 3, [2, 0, 1]⟩, ⟨1, 3, [-1, 4, 5]⟩] ∧
    Mat.drain exB.columnNext 4 0 = some [⟨2, 1, [2, -1]⟩, ⟨2, 1, [0, 4]⟩, ⟨2, 1, [1, 5]⟩] := by
  decide +kernel

end Field

/-! ## C19 equality -/

/-- `==` holds exactly when dimensions and all entries agree. -/
theorem C19_eq [Field K] [DecidableEq K] {m n p q : Nat} {A B : Mat K}
    {M : Matrix (Fin m) (Fin n) K} {N : Matrix (Fin p) (Fin q) K} (hA : Repr A M) (hB : Repr B N) :
    A.beq B = true ↔ ∃ (h1 : m = p) (h2 : n = q), ∀ i j, M i j = N (i.cast h1) (j.cast h2) := by
  unfold Mat.beq
  rw [hA.rows, hA.cols, hB.rows, hB.cols]
  by_cases h : (m, n) = (p, q)
  · simp only [Prod.mk.injEq] at h
    obtain ⟨rfl, rfl⟩ := h
    have : (A.data = B.data) ↔ ∀ i j, M i j = N i j := by
      constructor
      · intro hd i j
        have : A = B := by
          cases A; cases B
          simp only [Mat.mk.injEq]
          exact ⟨hA.rows.trans hB.rows.symm, hA.cols.trans hB.cols.symm, hd⟩
        subst this
        rw [hA.inj hB]
      · intro hd
        have : M = N := by ext i j; exact hd i j
        subst this
        rw [hA.ext hB]
    simp [this]
  · rw [if_pos h]
    constructor
    · intro h'; cases h'
    · rintro ⟨h1, h2, _⟩
      exact absurd (by rw [h1, h2]) h

/-- Partial: `abs_diff_eq` / `relative_eq` (with any entry comparison `cmp`) accept every pair of matrices of the
    same shape whose entries all compare equal, and reject if the first entries do not.  Missing: differences in
    other entries and in the dimensions go unnoticed (`C19_approx_violated`). -/
theorem C19_approx_partial [Field K] {m n : Nat} (cmp : K → K → Bool) {A B : Mat K}
    {M N : Matrix (Fin m) (Fin n) K} (hA : Repr A M) (hB : Repr B N) :
    ((∀ i j, cmp (M i j) (N i j) = true) → A.approxEq cmp B = true) ∧
    (∀ (h0 : 0 < m) (h1 : 0 < n), cmp (M ⟨0, h0⟩ ⟨0, h1⟩) (N ⟨0, h0⟩ ⟨0, h1⟩) = false →
      A.approxEq cmp B = false) := by
  have key : ∀ (h0 : 0 < m) (h1 : 0 < n),
      A.approxEq cmp B = cmp (M ⟨0, h0⟩ ⟨0, h1⟩) (N ⟨0, h0⟩ ⟨0, h1⟩) := by
    intro h0 h1
    have e1 := hA.is.hget 0 0 h0 h1
    have e2 := hB.is.hget 0 0 h0 h1
    rw [extM_lt M h0 h1] at e1
    rw [extM_lt N h0 h1] at e2
    unfold Mat.approxEq
    cases hdA : A.data with
    | nil => simp [hdA] at e1
    | cons a as =>
      cases hdB : B.data with
      | nil => simp [hdB] at e2
      | cons b bs =>
        simp only [hdA, hdB, Nat.zero_mul, Nat.add_zero, List.getElem?_cons_zero,
          Option.some.injEq] at e1 e2
        simp [Mat.approxLoop, e1, e2]
  constructor
  · intro h
    by_cases h0 : 0 < m ∧ 0 < n
    · rw [key h0.1 h0.2]; exact h _ _
    · have hl : A.data = [] := by
        apply List.eq_nil_of_length_eq_zero
        rw [hA.len]
        rcases Nat.eq_zero_or_pos m with e | e
        · simp [e]
        · have : n = 0 := by omega
          simp [this]
      simp [Mat.approxEq, hl, Mat.approxLoop]
  · intro h0 h1 h
    rw [key h0 h1, h]

/-- The property fails: only the first entry is compared, and dimensions are not compared at all. -/
theorem C19_approx_violated (cmp : ℚ → ℚ → Bool) (h : cmp 1 1 = true) :
    (⟨2, 1, [1, 2]⟩ : Mat ℚ).approxEq cmp ⟨2, 1, [1, 1000]⟩ = true ∧
    (⟨2, 1, [1, 2]⟩ : Mat ℚ).approxEq cmp ⟨1, 3, [1, 0, 0]⟩ = true := by
  simp [Mat.approxEq, Mat.approxLoop, h]

example : exA.beq exA = true ∧ exA.beq exB = false ∧
    exA.approxEq (fun a b => decide (a = b)) ⟨2, 2, [2, 0, 3, -7]⟩ = false := by decide +kernel

end Verif
