import Verif.SpectralModel
import Verif.HouseholderProps

/-!
# C77: bidiagonalization and singular values
-/

namespace Verif
open Finset Matrix

section
variable {K : Type} [Zero K] [One K] [Add K] [Sub K] [Mul K] [Div K] [Neg K] [NatCast K] [LinearOrder K]

/-- a double loop over rows and columns that sets the entries with property `p` to zero -/
theorem nullRows {m n : Nat} {a : Mat K} {f : Nat → Nat → K} (p : Nat → Nat → Prop) [DecidableRel p] (ha : a.Is m n f) :
    ∃ b, forRange 0 m (fun (a : Mat K) i =>
      forRange 0 n (fun (a : Mat K) k => if p i k then a.set i k 0 else some a) a) a = some b ∧
      b.Is m n (fun i k => if p i k then 0 else f i k) := by
  obtain ⟨b, h1, h2⟩ := forRange_inv (a := 0) (b := m) (s := a) (f := fun (a : Mat K) i =>
      forRange 0 n (fun (a : Mat K) k => if p i k then a.set i k 0 else some a) a)
    (fun l b => b.Is m n (fun i k => if i < l ∧ p i k then 0 else f i k)) (by omega) (by simpa using ha) (by
      intro l b _ hl hb
      obtain ⟨c, c1, c2⟩ := forRange_inv (a := 0) (b := n) (s := b)
        (f := fun (a : Mat K) k => if p l k then a.set l k 0 else some a)
        (fun q c => c.Is m n (fun i k => if (i < l ∨ i = l ∧ k < q) ∧ p i k then 0 else f i k)) (by omega)
        (by simpa using hb) (by
          intro q c _ hq hc
          by_cases h : p l q
          · rw [if_pos h]
            refine ⟨_, hc.set hl hq 0, (hc.put hl hq 0).congr fun i k _ _ => ?_⟩
            simp only [upd]
            by_cases e : i = l ∧ k = q
            · obtain ⟨rfl, rfl⟩ := e
              simp [h]
            · rw [if_neg e]
              have : (i < l ∨ i = l ∧ k < q) ↔ (i < l ∨ i = l ∧ k < q + 1) := by omega
              simp only [this]
          · rw [if_neg h]
            refine ⟨_, rfl, hc.congr fun i k _ _ => ?_⟩
            by_cases e : i = l ∧ k = q
            · obtain ⟨rfl, rfl⟩ := e
              simp [h]
            · have : (i < l ∨ i = l ∧ k < q) ↔ (i < l ∨ i = l ∧ k < q + 1) := by omega
              simp only [this])
      refine ⟨c, c1, c2.congr fun i k _ hk => ?_⟩
      have : (i < l ∨ i = l ∧ k < n) ↔ i < l + 1 := by omega
      simp only [this])
  exact ⟨b, h1, h2.congr fun i k hi _ => by simp [hi]⟩

/-- the same with the outer loop over the columns -/
theorem nullCols {n : Nat} {a : Mat K} {f : Nat → Nat → K} (p : Nat → Nat → Prop) [DecidableRel p] (ha : a.Is n n f) :
    ∃ b, forRange 0 n (fun (a : Mat K) l =>
      forRange 0 n (fun (a : Mat K) k => if p k l then a.set k l 0 else some a) a) a = some b ∧
      b.Is n n (fun i k => if p i k then 0 else f i k) := by
  obtain ⟨b, h1, h2⟩ := forRange_inv (a := 0) (b := n) (s := a) (f := fun (a : Mat K) l =>
      forRange 0 n (fun (a : Mat K) k => if p k l then a.set k l 0 else some a) a)
    (fun l b => b.Is n n (fun i k => if k < l ∧ p i k then 0 else f i k)) (by omega) (by simpa using ha) (by
      intro l b _ hl hb
      obtain ⟨c, c1, c2⟩ := forRange_inv (a := 0) (b := n) (s := b)
        (f := fun (a : Mat K) k => if p k l then a.set k l 0 else some a)
        (fun q c => c.Is n n (fun i k => if (k < l ∨ k = l ∧ i < q) ∧ p i k then 0 else f i k)) (by omega)
        (by simpa using hb) (by
          intro q c _ hq hc
          by_cases h : p q l
          · rw [if_pos h]
            refine ⟨_, hc.set hq hl 0, (hc.put hq hl 0).congr fun i k _ _ => ?_⟩
            simp only [upd]
            by_cases e : i = q ∧ k = l
            · obtain ⟨rfl, rfl⟩ := e
              simp [h]
            · rw [if_neg e]
              have : (k < l ∨ k = l ∧ i < q) ↔ (k < l ∨ k = l ∧ i < q + 1) := by omega
              simp only [this]
          · rw [if_neg h]
            refine ⟨_, rfl, hc.congr fun i k _ _ => ?_⟩
            by_cases e : i = q ∧ k = l
            · obtain ⟨rfl, rfl⟩ := e
              simp [h]
            · have : (k < l ∨ k = l ∧ i < q) ↔ (k < l ∨ k = l ∧ i < q + 1) := by omega
              simp only [this])
      refine ⟨c, c1, c2.congr fun i k hi _ => ?_⟩
      have : (k < l ∨ k = l ∧ i < n) ↔ k < l + 1 := by omega
      simp only [this])
  exact ⟨b, h1, h2.congr fun i k _ hk => by simp [hk]⟩

theorem svNull_is {n : Nat} {b : Mat K} {f : Nat → Nat → K} (hb : b.Is n n f) :
    ∃ b', Mat.svNull b = some b' ∧ b'.Is n n (fun i k => if i ≠ k then 0 else f i k) := by
  unfold Mat.svNull
  rw [hb.hm]
  exact nullCols (fun i k => i ≠ k) hb

end

section
variable {K : Type} [Field K] [LinearOrder K] [IsStrictOrderedRing K]

/-- `w` moved down by `i` places and filled with zeros -/
def shiftW {d : Nat} (i m : Nat) (w : Fin d → K) : Fin m → K := fun r => if i ≤ (r : Nat) then extV w (r - i) else 0

theorem shiftW_lt {d i m : Nat} (w : Fin d → K) {r : Fin m} (h : (r : Nat) < i) : shiftW i m w r = 0 := if_neg (by omega)

theorem shiftW_add {d i m : Nat} (w : Fin d → K) (l : Fin d) (h : i + l < m) : shiftW i m w ⟨i + l, h⟩ = w l := by
  unfold shiftW
  rw [if_pos (by simp)]
  simp [extV_apply]

theorem shiftW_sum {d i m : Nat} (hm : m = i + d) (w : Fin d → K) (G : Fin m → K) :
    ∑ r, shiftW i m w r * G r = ∑ l : Fin d, w l * G ⟨i + l, by omega⟩ := by
  subst hm
  rw [Fin.sum_univ_add, sum_eq_zero, zero_add]
  · exact sum_congr rfl fun l _ => congrArg (· * _) (shiftW_add w l (by omega))
  · intro l _
    rw [shiftW_lt, zero_mul]
    simp

theorem shiftW_unit {d i m : Nat} (hm : m = i + d) {w : Fin d → K} (hw : ∑ l, w l * w l = 1) :
    ∑ r, shiftW i m w r * shiftW i m w r = 1 := by
  rw [shiftW_sum hm, ← hw]
  exact sum_congr rfl fun l _ => by rw [shiftW_add]

/-- writing a reflection into the lower right corner of the identity gives a reflection -/
theorem embed_is {d i m : Nat} (hm : m = i + d) {H : Mat K} {w : Fin d → K} (hH : Repr H (hhM w)) :
    ∃ E, (Mat.one m : Mat K).setSlice H i i = some E ∧ Repr E (hhM (shiftW i m w)) := by
  obtain ⟨E, e1, e2⟩ := Mat.setSlice_is (r := i) (c := i) (Mat.one_is (K := K) m) hH.is (by omega) (by omega)
  refine ⟨E, e1, e2.repr_of fun a b => ?_⟩
  simp only [hhM, Matrix.of_apply, Fin.ext_iff]
  by_cases ha : i ≤ (a : Nat)
  · by_cases hb : i ≤ (b : Nat)
    · rw [if_pos (by omega), extM_lt _ (by omega : (a : Nat) - i < d) (by omega : (b : Nat) - i < d)]
      simp only [Matrix.of_apply, Fin.ext_iff, shiftW, if_pos ha, if_pos hb]
      rw [extV_lt w (by omega : (a : Nat) - i < d), extV_lt w (by omega : (b : Nat) - i < d)]
      have : ((a : Nat) - i = b - i) ↔ ((a : Nat) = b) := by omega
      simp only [this]
    · rw [if_neg (by omega), shiftW_lt w (by omega : (b : Nat) < i)]
      simp
  · rw [if_neg (by omega), shiftW_lt w (by omega : (a : Nat) < i)]
    simp

/-- applying a reflection to the lower right block, when the block to its left is zero, applies it to the matrix -/
theorem blockMul_is {d i m n : Nat} (hm : m = i + d) (hd : 0 < d) (hi : i < n) {a H : Mat K} {T : Matrix (Fin m) (Fin n) K}
    (ha : Repr a T) {w : Fin d → K} (hH : Repr H (hhM w))
    (hz : ∀ (r : Fin m) (c : Fin n), (c : Nat) < i → i ≤ (r : Nat) → T r c = 0) :
    ∃ s t b, a.getSlice i (m - 1) i (n - 1) = some s ∧ H.mul s = some t ∧ a.setSlice t i i = some b ∧
      Repr b (hhM (shiftW i m w) * T) := by
  obtain ⟨s, e1, e2⟩ := Mat.getSlice_is (r1 := i) (r2 := m - 1) (c1 := i) (c2 := n - 1) ha.is (by omega) (by omega)
    (by omega) (by omega)
  rw [show m - 1 - i + 1 = d by omega, show n - 1 - i + 1 = n - i by omega] at e2
  obtain ⟨t, e3, e4⟩ := Mat.mul_is hH.is e2
  obtain ⟨b, e5, e6⟩ := Mat.setSlice_is (r := i) (c := i) ha.is e4 (by omega) (by omega)
  refine ⟨s, t, b, e1, e3, e5, e6.repr_of fun r c => ?_⟩
  rw [hhM_mul]
  by_cases hr : i ≤ (r : Nat)
  · by_cases hc : i ≤ (c : Nat)
    · rw [if_pos (by omega), shiftW_sum hm]
      have key := hhM_mul w (Matrix.of fun (l : Fin d) (_ : Fin 1) => T ⟨i + l, by omega⟩ c) ⟨r - i, by omega⟩ 0
      have e : T ⟨i + (r - i), by omega⟩ c = T r c := by congr 1; exact Fin.ext (by simp; omega)
      have e' : w ⟨r - i, by omega⟩ = shiftW i m w r := by
        unfold shiftW
        rw [if_pos hr, extV_lt w (by omega)]
      simp only [Matrix.of_apply, e, e'] at key
      rw [← key, Matrix.mul_apply, ← Mat.sum_fin]
      refine sum_congr rfl fun l _ => ?_
      rw [extM_lt _ (by omega : (r : Nat) - i < d) l.2, extM_lt T (by omega : i + (l : Nat) < m) (by omega : i + ((c : Nat) - i) < n)]
      rw [Matrix.of_apply]
      congr 2
      exact Fin.ext (by simp; omega)
    · rw [if_neg (by omega), extM_apply, shiftW_sum hm]
      rw [sum_eq_zero fun l _ => by rw [hz _ _ (by omega) (by simp), mul_zero]]
      ring
  · rw [if_neg (by omega), extM_apply, shiftW_lt w (by omega)]
    ring

theorem mul_hhM {m n : Nat} (w : Fin n → K) (X : Matrix (Fin m) (Fin n) K) (i : Fin m) (j : Fin n) :
    (X * hhM w) i j = X i j - 2 * (w j * ∑ l, w l * X i l) := by
  have h := hhM_mul w X.transpose j i
  rw [← hhM_transpose, ← Matrix.transpose_mul, Matrix.transpose_apply] at h
  simpa using h

end

section
variable {K : Type} [Field K] [LinearOrder K] [IsStrictOrderedRing K] {sqrt : K → K}

/-- the state before step `i` -/
def BiInv {m n : Nat} (M : Matrix (Fin m) (Fin n) K) (i : Nat) (st : Mat K × Mat K × Mat K) : Prop :=
  ∃ (U : Matrix (Fin m) (Fin m) K) (T : Matrix (Fin m) (Fin n) K) (V : Matrix (Fin n) (Fin n) K),
    Repr st.1 U ∧ Repr st.2.1 T ∧ Repr st.2.2 V ∧ U * U.transpose = 1 ∧ V * V.transpose = 1 ∧
    U * T * V.transpose = M ∧
    (∀ (r : Fin m) (c : Fin n), (c : Nat) < i → (c : Nat) < r → T r c = 0) ∧
    (∀ (r : Fin m) (c : Fin n), (r : Nat) < i → (r : Nat) + 1 < c → T r c = 0) ∧
    (∀ (r : Fin m) (c : Fin n), (r : Nat) < i → (r : Nat) = c → T r c ≠ 0)

theorem bidiagStep_cases (hs : IsSqrt sqrt) {m n i : Nat} (hmn : n ≤ m) (hi : i + 1 < n) {M : Matrix (Fin m) (Fin n) K}
    {st : Mat K × Mat K × Mat K} (h : BiInv M i st) {o : Option (Mat K × Mat K × Mat K)}
    (hst : Mat.bidiagStep sqrt m n st i = o) :
    (o = none ∧ ∀ T : Matrix (Fin m) (Fin n) K, Repr st.2.1 T → ∀ r : Fin m, i ≤ (r : Nat) → T r ⟨i, by omega⟩ = 0) ∨
      ∃ st', o = some st' ∧ BiInv M (i + 1) st' := by
  obtain ⟨U, T, V, hU, hT, hV, oU, oV, hM, z1, z2, z3⟩ := h
  obtain ⟨d, hd⟩ : ∃ d, m = i + d := ⟨m - i, by omega⟩
  obtain ⟨e, he⟩ : ∃ e, n = (i + 1) + e := ⟨n - (i + 1), by omega⟩
  unfold Mat.bidiagStep at hst
  simp only [Option.bind_eq_bind] at hst
  obtain ⟨ux, a1, a2⟩ := Mat.getColumn_is hT.is (j := i) (by omega)
  obtain ⟨us, b1, b2⟩ := Mat.vgetSlice_of (v := ux) (n := m) (s := i) (e := m - 1) (x := fun r => extM T r i)
    (fun r hr => a2.vget_col hr) (by rw [a2.hm, a2.hn]; split <;> omega) (by omega) (by omega)
  rw [show m - 1 - i + 1 = d by omega] at b2
  rw [a1, Option.bind_some, b1, Option.bind_some] at hst
  have bx : ColRepr us (fun l : Fin d => T ⟨i + l, by omega⟩ ⟨i, by omega⟩) := b2.colRepr_of fun l => by
    rw [extM_lt T (by omega) (by omega)]
  obtain ⟨s0, s1, -⟩ := Mat.getSlice_is (r1 := i) (r2 := m - 1) (c1 := i) (c2 := n - 1) hT.is (by omega) (by omega)
    (by omega) (by omega)
  rcases householder_is hs (k := 0) bx (by omega) (by omega) with ⟨e9, e0⟩ | ⟨H, w, al, h1, h2, h3, -, h5, h6, h7, -⟩
  · left
    rw [e0, Option.bind_some] at hst
    obtain ⟨s, s1, s2⟩ := Mat.getSlice_is (r1 := i) (r2 := m - 1) (c1 := i) (c2 := n - 1) hT.is (by omega) (by omega)
      (by omega) (by omega)
    rw [s1, Option.bind_some] at hst
    have : (Mat.one 1 : Mat K).mul s = none := by
      unfold Mat.mul
      rw [if_neg]
      rw [s2.hm]
      show ¬ (1 = _)
      omega
    rw [this] at hst
    refine ⟨hst.symm, fun T' hT' r hr => ?_⟩
    obtain rfl : T' = T := by
      ext a b
      have := hT'.is.unique hT.is a.2 b.2
      rwa [extM_apply, extM_apply] at this
    have := e9 ⟨r - i, by omega⟩ (by simp)
    have e1 : (⟨i + (r - i), by omega⟩ : Fin m) = r := Fin.ext (by simp; omega)
    simpa only [e1] using this
  · right
    rw [h1, Option.bind_some] at hst
    obtain ⟨s, t, b, c1, c2, c3, c4⟩ := blockMul_is hd (by omega) (by omega : i < n) hT h2
      (fun r c hc hr => z1 r c hc (by omega))
    obtain ⟨E, d1, d2⟩ := embed_is hd h2
    obtain ⟨U', f1, f2⟩ := repr_mul hU d2
    rw [c1, Option.bind_some, c2, Option.bind_some, c3, Option.bind_some, d1, Option.bind_some, f1, Option.bind_some] at hst
    set W := shiftW i m w with hW
    have hWu : ∑ r, W r * W r = 1 := shiftW_unit hd h3
    have hWo := hhM_orth hWu
    set T1 := hhM W * T with hT1
    -- properties of the new block
    have y1 : ∀ (r : Fin m) (c : Fin n), (c : Nat) < i + 1 → (c : Nat) < r → T1 r c = 0 := by
      intro r c hc hr
      rw [hT1, hhM_mul, hW, shiftW_sum hd]
      by_cases hci : (c : Nat) = i
      · have hcc : c = ⟨i, by omega⟩ := Fin.ext hci
        have := h5 ⟨r - i, by omega⟩ (by simp; omega)
        have e1 : (⟨i + (r - i), by omega⟩ : Fin m) = r := Fin.ext (by simp; omega)
        have e2 : shiftW i m w r = w ⟨r - i, by omega⟩ := by
          unfold shiftW
          rw [if_pos (by omega), extV_lt w (by omega)]
        simp only [e1, ← hcc] at this
        rw [e2]
        exact this
      · rw [z1 r c (by omega) hr, sum_eq_zero fun l _ => by rw [z1 _ _ (by omega) (by simp; omega), mul_zero]]
        ring
    have y2 : ∀ (r : Fin m) (c : Fin n), (r : Nat) < i → T1 r c = T r c := by
      intro r c hr
      rw [hT1, hhM_mul, hW, shiftW_lt w hr]
      ring
    -- the row
    obtain ⟨vx, g1, g2⟩ := Mat.getRow_is c4.is (i := i) (by omega)
    obtain ⟨vt, g3, g4⟩ := Mat.transpose_is g2 (Or.inr (Or.inl rfl)) (Or.inl (by norm_num))
    obtain ⟨vs, g5, g6⟩ := Mat.vgetSlice_of (v := vt) (n := n) (s := i + 1) (e := n - 1) (x := fun c => extM T1 i c)
      (fun r hr => g4.vget_col hr) (by rw [g4.hm, g4.hn]; split <;> omega) (by omega) (by omega)
    rw [show n - 1 - (i + 1) + 1 = e by omega] at g6
    have gx : ColRepr vs (fun l : Fin e => T1 ⟨i, by omega⟩ ⟨i + 1 + l, by omega⟩) := g6.colRepr_of fun l => by
      rw [extM_lt T1 (by omega) (by omega)]
    rw [g1, Option.bind_some, g3, Option.bind_some, g5, Option.bind_some] at hst
    -- the right factor
    have hR : ∃ (vi vn : Mat K) (R : Matrix (Fin n) (Fin n) K), vs.householder sqrt 0 = some vi ∧ (Mat.one n : Mat K).setSlice vi (i + 1) (i + 1) = some vn ∧
        Repr vn R ∧ R * R.transpose = 1 ∧
        (∀ (r : Fin m) (c : Fin n), (c : Nat) < i + 1 → (T1 * R) r c = T1 r c) ∧
        (∀ (r : Fin m) (c : Fin n), (r : Nat) < i → (T1 * R) r c = T1 r c) ∧
        (∀ (r : Fin m) (c : Fin n), (r : Nat) = i → (r : Nat) + 1 < c → (T1 * R) r c = 0) := by
      have hid : vs.householder sqrt 0 = some (Mat.one 1) → (∀ c : Fin n, i + 1 < (c : Nat) → T1 ⟨i, by omega⟩ c = 0) →
          ∃ (vi vn : Mat K) (R : Matrix (Fin n) (Fin n) K), vs.householder sqrt 0 = some vi ∧ (Mat.one n : Mat K).setSlice vi (i + 1) (i + 1) = some vn ∧
        Repr vn R ∧ R * R.transpose = 1 ∧
        (∀ (r : Fin m) (c : Fin n), (c : Nat) < i + 1 → (T1 * R) r c = T1 r c) ∧
        (∀ (r : Fin m) (c : Fin n), (r : Nat) < i → (T1 * R) r c = T1 r c) ∧
        (∀ (r : Fin m) (c : Fin n), (r : Nat) = i → (r : Nat) + 1 < c → (T1 * R) r c = 0) := by
        intro hh hz
        obtain ⟨vn, k1, k2⟩ := Mat.setSlice_is (r := i + 1) (c := i + 1) (Mat.one_is (K := K) n) (Mat.one_is (K := K) 1)
          (by omega) (by omega)
        refine ⟨_, vn, 1, hh, k1, k2.repr_of fun a b => ?_, by simp, by simp, by simp, ?_⟩
        · rw [Matrix.one_apply]
          simp only [Fin.ext_iff]
          split
          · rw [if_pos (by omega), if_pos (by omega)]
          · rfl
        · intro r c hr hc
          rw [Matrix.mul_one]
          have : r = ⟨i, by omega⟩ := Fin.ext hr
          rw [this]
          exact hz c (by omega)
      by_cases he1 : e = 1
      · refine hid ?_ (fun c hc => by omega)
        unfold Mat.householder
        rw [g6.hm, if_neg (by omega), if_neg (by omega), if_pos he1, he1]
      · rcases householder_is hs (k := 0) gx (by omega) (by omega) with ⟨e1, e0⟩ | ⟨H', w', al', h1', h2', h3', -, h5', -⟩
        · refine hid e0 (fun c hc => ?_)
          have := e1 ⟨c - (i + 1), by omega⟩ (by simp)
          have e2 : (⟨i + 1 + (c - (i + 1)), by omega⟩ : Fin n) = c := Fin.ext (by simp; omega)
          simpa only [e2] using this
        · obtain ⟨vn, k1, k2⟩ := embed_is he h2'
          refine ⟨H', vn, _, h1', k1, k2, ?_, ?_, ?_, ?_⟩
          · rw [hhM_transpose, hhM_orth (shiftW_unit he h3')]
          · intro r c hc
            rw [mul_hhM, shiftW_lt w' hc]
            ring
          · intro r c hr
            rw [mul_hhM, shiftW_sum he, sum_eq_zero fun l _ => by
              rw [y2 _ _ hr, z2 _ _ hr (by simp; omega), mul_zero]]
            ring
          · intro r c hr hc
            have hrr : r = ⟨i, by omega⟩ := Fin.ext hr
            rw [mul_hhM, shiftW_sum he]
            have := h5' ⟨c - (i + 1), by omega⟩ (by simp; omega)
            have e2 : (⟨i + 1 + (c - (i + 1)), by omega⟩ : Fin n) = c := Fin.ext (by simp; omega)
            have e3 : shiftW (i + 1) n w' c = w' ⟨c - (i + 1), by omega⟩ := by
              unfold shiftW
              rw [if_pos (by omega), extV_lt w' (by omega)]
            simp only [e2, ← hrr] at this
            rw [e3]
            exact this
    obtain ⟨vi, vn, R, r1, r2, r3, r4, r5, r6, r7⟩ := hR
    obtain ⟨a', k1, k2⟩ := repr_mul c4 r3
    obtain ⟨v', l1, l2⟩ := repr_mul hV r3
    rw [r1, Option.bind_some, r2, Option.bind_some, k1, Option.bind_some, l1, Option.bind_some] at hst
    refine ⟨_, hst.symm, ?_⟩
    refine ⟨_, _, _, f2, k2, l2, ?_, ?_, ?_, ?_, ?_, ?_⟩
    · rw [Matrix.transpose_mul, hhM_transpose, Matrix.mul_assoc, ← Matrix.mul_assoc (hhM W), hWo, Matrix.one_mul, oU]
    · rw [Matrix.transpose_mul, Matrix.mul_assoc, ← Matrix.mul_assoc R, r4, Matrix.one_mul, oV]
    · rw [Matrix.transpose_mul, ← hM, hT1]
      calc U * hhM W * (hhM W * T * R) * (R.transpose * V.transpose)
          = U * (hhM W * hhM W) * T * (R * R.transpose) * V.transpose := by simp only [Matrix.mul_assoc]
        _ = _ := by rw [hWo, r4, Matrix.mul_one, Matrix.mul_one]
    · intro r c hc hr
      rw [r5 r c hc]
      exact y1 r c hc hr
    · intro r c hr hc
      by_cases hri : (r : Nat) = i
      · exact r7 r c hri hc
      · rw [r6 r c (by omega), y2 r c (by omega)]
        exact z2 r c (by omega) hc
    · intro r c hr hc
      rw [r5 r c (by omega)]
      by_cases hri : (r : Nat) = i
      · have hrr : r = ⟨i, by omega⟩ := Fin.ext hri
        have hcc : c = ⟨i, by omega⟩ := Fin.ext (by omega)
        rw [hT1, hhM_mul, hW, shiftW_sum hd, hrr, hcc]
        have e2 : shiftW i m w ⟨i, by omega⟩ = w ⟨0, by omega⟩ := by
          unfold shiftW
          rw [if_pos le_rfl, extV_lt w (by simp; omega)]
          simp
        rw [e2]
        simp only [add_zero] at h6
        rw [h6]
        exact h7
      · rw [y2 r c (by omega)]
        exact z3 r c (by omega) hc

theorem bidiagStep_inv (hs : IsSqrt sqrt) {m n i : Nat} (hmn : n ≤ m) (hi : i + 1 < n) {M : Matrix (Fin m) (Fin n) K}
    {st st' : Mat K × Mat K × Mat K} (h : BiInv M i st) (hst : Mat.bidiagStep sqrt m n st i = some st') :
    BiInv M (i + 1) st' := by
  rcases bidiagStep_cases hs hmn hi h hst with ⟨h1, -⟩ | ⟨st1, h1, h2⟩
  · cases h1
  · cases h1
    exact h2

/-- `householder_bidiag` for any shape: the only error is that the last column below row `n - 1` is nulled instead of
being eliminated. -/
theorem bidiag_inv (hs : IsSqrt sqrt) {m n : Nat} {A u b v : Mat K} {M : Matrix (Fin m) (Fin n) K} (hA : Repr A M)
    (h : A.bidiag sqrt = some (u, b, v)) :
    0 < n ∧ n ≤ m ∧ ∃ (U : Matrix (Fin m) (Fin m) K) (B E : Matrix (Fin m) (Fin n) K) (V : Matrix (Fin n) (Fin n) K),
      Repr u U ∧ Repr b B ∧ Repr v V ∧ U * U.transpose = 1 ∧ V * V.transpose = 1 ∧ U * (B + E) * V.transpose = M ∧
      (∀ (r : Fin m) (c : Fin n), (c : Nat) ≠ r → (c : Nat) ≠ r + 1 → B r c = 0) ∧
      (∀ (r : Fin m) (c : Fin n), E r c ≠ 0 → (c : Nat) + 1 = n ∧ n ≤ (r : Nat)) ∧
      (∀ (r : Fin m) (c : Fin n), (r : Nat) = c → (c : Nat) + 1 < n → B r c ≠ 0) := by
  unfold Mat.bidiag at h
  rw [hA.rows, hA.cols] at h
  by_cases hc : m < n ∨ n = 0
  · rw [if_pos hc] at h; cases h
  rw [if_neg hc] at h
  simp only [Option.bind_eq_bind, Option.bind_eq_some_iff] at h
  obtain ⟨st, e1, a, e2, e3⟩ := h
  have inv := forRange_inv_of_some (P := fun i st => BiInv M i st)
    ⟨1, M, 1, repr_one m, hA, repr_one n, by simp, by simp, by simp, by intros; omega, by intros; omega, by intros; omega⟩ (by
      intro i s s' _ hi h1 h2
      exact bidiagStep_inv hs (by omega) (by omega) h1 h2) e1
  obtain ⟨U, T, V, hU, hT, hV, oU, oV, hM, z1, z2, z3⟩ := inv
  simp only [Nat.max_eq_right (Nat.zero_le (n - 1))] at z1 z2 z3
  obtain ⟨b', b1, b2⟩ := nullRows (fun i k => k ≠ i ∧ k ≠ i + 1) hT.is
  rw [b1] at e2
  cases e2
  cases e3
  refine ⟨by omega, by omega, U, Matrix.of fun r c => if (c : Nat) ≠ r ∧ (c : Nat) ≠ r + 1 then 0 else T r c,
    Matrix.of fun r c => if (c : Nat) ≠ r ∧ (c : Nat) ≠ r + 1 then T r c else 0, V, hU,
    b2.repr_of fun r c => by rw [extM_apply]; rfl, hV, oU, oV, ?_, ?_, ?_, ?_⟩
  · rw [← hM]
    congr 2
    ext r c
    simp only [Matrix.add_apply, Matrix.of_apply]
    split <;> simp
  · intro r c h1 h2
    simp [h1, h2]
  · intro r c hE
    simp only [Matrix.of_apply] at hE
    by_cases h : (c : Nat) ≠ r ∧ (c : Nat) ≠ r + 1
    · rw [if_pos h] at hE
      rcases lt_or_ge (r : Nat) c with h1 | h1
      · exact absurd (z2 r c (by omega) (by omega)) hE
      · by_contra hno
        exact hE (z1 r c (by omega) (by omega))
    · rw [if_neg h] at hE
      exact absurd rfl hE
  · intro r c h1 h2
    simp only [Matrix.of_apply]
    rw [if_neg (by omega)]
    exact z3 r c (by omega) h1

/-- the pair of `rot` is a rotation -/
theorem rot_unit (hs : IsSqrt sqrt) (f g : K) : (Mat.rot sqrt f g).1 * (Mat.rot sqrt f g).1 +
    (Mat.rot sqrt f g).2.1 * (Mat.rot sqrt f g).2.1 = 1 := by
  unfold Mat.rot
  have key : ∀ t : K, sqrt (1 + t * t) ≠ 0 ∧ sqrt (1 + t * t) * sqrt (1 + t * t) = 1 + t * t := by
    intro t
    have h0 : 0 < 1 + t * t := by have := mul_self_nonneg t; linarith
    obtain ⟨-, h2⟩ := hs _ h0.le
    exact ⟨fun h => by rw [h] at h2; linarith, h2⟩
  split
  · simp
  · split
    · obtain ⟨h1, h2⟩ := key (g / f)
      simp only
      generalize g / f = t at *
      generalize sqrt (1 + t * t) = q at *
      field_simp
      linear_combination -h2
    · obtain ⟨h1, h2⟩ := key (f / g)
      simp only
      generalize f / g = t at *
      generalize sqrt (1 + t * t) = q at *
      field_simp
      linear_combination -h2

omit [LinearOrder K] [IsStrictOrderedRing K] in
theorem putRot_is {n k : Nat} (hk : k + 1 < n) {q : Mat K} {f : Nat → Nat → K} (hq : q.Is n n f)
    (hf : ∀ a b, a < n → b < n → ¬ ((a = k ∨ a = k + 1) ∧ (b = k ∨ b = k + 1)) → f a b = if a = b then 1 else 0) (c s : K) :
    ∃ g, Mat.putRot q k c s = some g ∧ Repr g (givensM (⟨k, by omega⟩ : Fin n) ⟨k + 1, hk⟩ c s) := by
  have hk0 : k < n := by omega
  have h1 := hq.put hk0 hk0 c
  have h2 := h1.put hk0 hk s
  have h3 := h2.put hk hk0 (-s)
  have h4 := h3.put hk hk c
  refine ⟨_, ?_, h4.repr_of fun a b => ?_⟩
  · simp only [Mat.putRot, hq.set hk0 hk0, h1.set hk0 hk, h2.set hk hk0, h3.set hk hk, Option.bind_eq_bind, Option.bind_some]
  · have hf' := hf a b a.2 b.2
    simp only [upd, givensM, Matrix.of_apply, Fin.ext_iff]
    by_cases e1 : (a : Nat) = k <;> by_cases e2 : (a : Nat) = k + 1 <;> by_cases e3 : (b : Nat) = k <;>
      by_cases e4 : (b : Nat) = k + 1 <;> first | omega | skip
    all_goals simp only [e1, e2, e3, e4] at hf' ⊢
    all_goals simp at hf' ⊢
    all_goals first
      | (rw [hf', if_neg (by omega)]; done)
      | (rw [hf', eq_comm, if_neg (by omega)]; done)
      | (rw [hf']; simp only [eq_comm])

omit [IsStrictOrderedRing K] in
theorem givensM_orth' {n : Nat} {i j : Fin n} (hij : i ≠ j) {c s : K} (h : c * c + s * s = 1) :
    givensM i j c s * (givensM i j c s).transpose = 1 := by
  rw [mul_eq_one_comm]
  exact givensM_orth hij h

/-- the state of the sweeps: `U`, `V` orthogonal and `Uᵀ B Vᵀ` fixed -/
def SwInv {n : Nat} (X : Matrix (Fin n) (Fin n) K) (st : Mat K × Mat K × Mat K) : Prop :=
  ∃ U B V : Matrix (Fin n) (Fin n) K, Repr st.1 U ∧ Repr st.2.1 B ∧ Repr st.2.2 V ∧
    U * U.transpose = 1 ∧ V * V.transpose = 1 ∧ U.transpose * B * V.transpose = X

theorem msweepStep_inv (hs : IsSqrt sqrt) {n k : Nat} (hk : k + 1 < n) {X : Matrix (Fin n) (Fin n) K}
    {st : Mat K × Mat K × Mat K} (h : SwInv X st) : ∃ st', Mat.msweepStep sqrt n st k = some st' ∧ SwInv X st' := by
  obtain ⟨U, B, V, hU, hB, hV, oU, oV, hX⟩ := h
  have hk0 : k < n := by omega
  unfold Mat.msweepStep
  simp only [Option.bind_eq_bind]
  rw [hB.is.get hk0 hk0, Option.bind_some, hB.is.get hk0 hk, Option.bind_some]
  generalize hr : Mat.rot sqrt (extM B k k) (extM B k (k + 1)) = r
  have ur := rot_unit hs (extM B k k) (extM B k (k + 1))
  rw [hr] at ur
  obtain ⟨q, q1, q2⟩ := putRot_is hk (Mat.one_is (K := K) n) (fun a b _ _ _ => rfl) r.1 r.2.1
  rw [q1, Option.bind_some]
  obtain ⟨qt, t1, t2⟩ := Mat.transpose_is q2.is (Or.inl rfl) (Or.inl (by omega))
  have hne : (⟨k, hk0⟩ : Fin n) ≠ ⟨k + 1, hk⟩ := by simp [Fin.ext_iff]
  set G := givensM (⟨k, hk0⟩ : Fin n) ⟨k + 1, hk⟩ r.1 r.2.1 with hG
  have t3 : Repr qt G.transpose := t2.repr_of fun a b => extM_apply _ b a
  have oG : G.transpose * G = 1 := givensM_orth hne ur
  obtain ⟨b1, b2, b3⟩ := repr_mul hB t3
  obtain ⟨v1, v2, v3⟩ := repr_mul hV t3
  rw [t1, Option.bind_some, b2, Option.bind_some, v2, Option.bind_some]
  rw [b3.is.get hk0 hk0, Option.bind_some, b3.is.get hk hk0, Option.bind_some]
  generalize hr' : Mat.rot sqrt (extM (B * G.transpose) k k) (extM (B * G.transpose) (k + 1) k) = r'
  have ur' := rot_unit hs (extM (B * G.transpose) k k) (extM (B * G.transpose) (k + 1) k)
  rw [hr'] at ur'
  obtain ⟨p, p1, p2⟩ := putRot_is hk q2.is (by
    intro a b ha hb hab
    rw [extM_lt _ ha hb, hG]
    simp only [givensM, Matrix.of_apply, Fin.ext_iff]
    by_cases e1 : a = k
    · rw [if_pos e1, if_neg (by omega), if_neg (by omega), if_neg (by omega), add_zero]
    · by_cases e2 : a = k + 1
      · rw [if_neg e1, if_pos e2, if_neg (by omega), if_neg (by omega), if_neg (by omega), add_zero]
      · rw [if_neg e1, if_neg e2]
        simp only [eq_comm]) r'.1 r'.2.1
  set G' := givensM (⟨k, hk0⟩ : Fin n) ⟨k + 1, hk⟩ r'.1 r'.2.1 with hG'
  have oG' : G'.transpose * G' = 1 := givensM_orth hne ur'
  obtain ⟨c1, c2, c3⟩ := repr_mul p2 b3
  obtain ⟨u1, u2, u3⟩ := repr_mul p2 hU
  rw [p1, Option.bind_some, c2, Option.bind_some, u2, Option.bind_some]
  refine ⟨_, rfl, _, _, _, u3, c3, v3, ?_, ?_, ?_⟩
  · rw [Matrix.transpose_mul, Matrix.mul_assoc, ← Matrix.mul_assoc U, oU, Matrix.one_mul]
    exact givensM_orth' hne ur'
  · rw [Matrix.transpose_mul, Matrix.transpose_transpose, Matrix.mul_assoc, ← Matrix.mul_assoc _ G, oG, Matrix.one_mul, oV]
  · rw [Matrix.transpose_mul, Matrix.transpose_mul, Matrix.transpose_transpose, ← hX]
    calc U.transpose * G'.transpose * (G' * (B * G.transpose)) * (G * V.transpose)
        = U.transpose * (G'.transpose * G') * B * (G.transpose * G) * V.transpose := by simp only [Matrix.mul_assoc]
      _ = _ := by rw [oG, oG', Matrix.mul_one, Matrix.mul_one]

theorem msweep_inv (hs : IsSqrt sqrt) {n : Nat} {X : Matrix (Fin n) (Fin n) K}
    {st : Mat K × Mat K × Mat K} (h : SwInv X st) : ∃ st', Mat.msweep sqrt st = some st' ∧ SwInv X st' := by
  have hn : st.2.1.n = n := by
    obtain ⟨U, B, V, hU, hB, -⟩ := h
    exact hB.cols
  unfold Mat.msweep
  rw [hn]
  exact forRange_inv (fun _ st => SwInv X st) (by omega) h (fun i t _ hi ht => msweepStep_inv hs (by omega) ht)

theorem svSign_inv {n l : Nat} (hl : l < n) {X U : Matrix (Fin n) (Fin n) K} {st : Mat K × Mat K} {f : Nat → Nat → K}
    (hU : Repr st.1 U) (hb : st.2.Is n n f) (oU : U * U.transpose = 1)
    (hX : ∃ B, U * B = X ∧ ∀ i : Fin n, B i i = f i i) (hp : ∀ i, i < l → 0 ≤ f i i) :
    ∃ st' U' f', Mat.svSign st l = some st' ∧ Repr st'.1 U' ∧ st'.2.Is n n f' ∧ U' * U'.transpose = 1 ∧
      (∃ B, U' * B = X ∧ ∀ i : Fin n, B i i = f' i i) ∧ (∀ i, i < l + 1 → 0 ≤ f' i i) ∧ ∀ i, |f' i i| = |f i i| := by
  unfold Mat.svSign
  simp only [Option.bind_eq_bind]
  rw [hb.get hl hl, Option.bind_some]
  by_cases hx : f l l < 0
  · rw [if_pos hx, hb.set hl hl, Option.bind_some]
    obtain ⟨c, c1, c2⟩ := Mat.getColumn_is hU.is hl
    obtain ⟨u, u1, u2⟩ := Mat.setColumn_is hU.is (Mat.mulScalar_is c2 (-1)) hl
    rw [c1, Option.bind_some, u1, Option.bind_some]
    set D : Fin n → K := fun i => if (i : Nat) = l then -1 else 1 with hD
    have hDD : Matrix.diagonal D * Matrix.diagonal D = 1 := by
      rw [Matrix.diagonal_mul_diagonal, ← Matrix.diagonal_one]
      congr 1
      funext i
      simp only [hD]
      split <;> simp
    obtain ⟨B, hB, hd⟩ := hX
    refine ⟨_, U * Matrix.diagonal D, _, rfl, u2.repr_of fun i j => ?_, hb.put hl hl _, ?_, ⟨Matrix.diagonal D * B, ?_, ?_⟩, ?_, ?_⟩
    · rw [Matrix.mul_diagonal, extM_apply]
      by_cases e : (j : Nat) = l
      · simp only [hD, e, if_true]
        rw [← e, extM_apply]
      · simp only [hD, e, if_false, mul_one]
    · rw [Matrix.transpose_mul, Matrix.diagonal_transpose, Matrix.mul_assoc, ← Matrix.mul_assoc _ _ U.transpose, hDD,
        Matrix.one_mul, oU]
    · rw [Matrix.mul_assoc, ← Matrix.mul_assoc _ _ B, hDD, Matrix.one_mul, hB]
    · intro i
      rw [Matrix.diagonal_mul, hd]
      by_cases e : (i : Nat) = l
      · simp [hD, e]
      · rw [upd_ne _ _ (by omega)]
        simp [hD, e]
    · intro i hi
      by_cases e : i = l
      · subst e
        rw [upd_same]
        linarith
      · rw [upd_ne _ _ (by omega)]
        exact hp i (by omega)
    · intro i
      by_cases e : i = l
      · subst e
        rw [upd_same, abs_neg]
      · rw [upd_ne _ _ (by omega)]
  · rw [if_neg hx]
    refine ⟨st, U, f, rfl, hU, hb, oU, hX, fun i hi => ?_, fun i => rfl⟩
    by_cases e : i = l
    · subst e
      exact not_lt.1 hx
    · exact hp i (by omega)

/-- what `dec_sv` returns for square matrices, and that it returns whenever the bidiagonalization does -/
theorem decSv_inv (hs : IsSqrt sqrt) {n : Nat} {A : Mat K} {M : Matrix (Fin n) (Fin n) K} (hA : Repr A M) :
    (A.bidiag sqrt = none → A.decSv sqrt = none) ∧ (A.bidiag sqrt ≠ none →
      ∃ u s v, A.decSv sqrt = some (u, s, v) ∧ ∃ U S V B : Matrix (Fin n) (Fin n) K, Repr u U ∧ Repr s S ∧ Repr v V ∧
        U * U.transpose = 1 ∧ V * V.transpose = 1 ∧ (∀ i j, i ≠ j → S i j = 0) ∧ (∀ i, 0 ≤ S i i) ∧
        U * B * V.transpose = M ∧ ∀ i, B i i = S i i) := by
  constructor
  · intro h
    unfold Mat.decSv
    rw [h]
    rfl
  · intro h
    obtain ⟨⟨u0, b0, v0⟩, h0⟩ := Option.ne_none_iff_exists'.1 h
    obtain ⟨hn, -, U0, B0, E0, V0, a1, a2, a3, a4, a5, a6, -, a8, -⟩ := bidiag_inv hs hA h0
    have hE : E0 = 0 := by
      ext r c
      by_contra hne
      have := a8 r c hne
      omega
    rw [hE, add_zero] at a6
    obtain ⟨st, e1, U1, B1, V1, c1, c2, c3, c4, c5, c6⟩ := forRange_inv (a := 0) (b := 500 * n * n)
      (f := fun st _ => Mat.msweep sqrt st) (s := (Mat.one n, b0, v0))
      (fun _ st => SwInv (B0 * V0.transpose) st) (by omega)
      ⟨1, B0, V0, repr_one n, a2, a3, by simp, a5, by simp⟩ (fun i t _ _ ht => msweep_inv hs ht)
    obtain ⟨ut, t1, t2⟩ := Mat.transpose_is c1.is (Or.inl rfl) (Or.inl hn)
    have t3 : Repr ut U1.transpose := t2.repr_of fun a b => extM_apply _ b a
    obtain ⟨u2, w1, w2⟩ := repr_mul a1 t3
    have c4' : U1.transpose * U1 = 1 := by rw [mul_eq_one_comm]; exact c4
    have oU2 : U0 * U1.transpose * (U0 * U1.transpose).transpose = 1 := by
      rw [Matrix.transpose_mul, Matrix.transpose_transpose, Matrix.mul_assoc, ← Matrix.mul_assoc _ U1, c4', Matrix.one_mul, a4]
    obtain ⟨ub, d1, U3, f3, d2, d3, d4, ⟨B3, d5, d6⟩, d7⟩ := forRange_inv (a := 0) (b := n) (s := (u2, st.2.1))
      (f := Mat.svSign) (fun l ub => ∃ (U : Matrix (Fin n) (Fin n) K) (f : Nat → Nat → K), Repr ub.1 U ∧ ub.2.Is n n f ∧
        U * U.transpose = 1 ∧ (∃ B, U * B = U0 * U1.transpose * B1 ∧ ∀ i : Fin n, B i i = f i i) ∧ ∀ i, i < l → 0 ≤ f i i)
      (by omega) ⟨_, _, w2, c2.is, oU2, ⟨B1, rfl, fun i => by rw [extM_apply]⟩, fun i hi => by omega⟩ (by
        rintro l t - hl ⟨U, f, g1, g2, g3, g4, g5⟩
        obtain ⟨t', U', f', k1, k2, k3, k4, k5, k6, -⟩ := svSign_inv hl g1 g2 g3 g4 g5
        exact ⟨t', k1, U', f', k2, k3, k4, k5, k6⟩)
    obtain ⟨b', n1, n2⟩ := svNull_is d3
    refine ⟨ub.1, b', st.2.2, ?_, U3, _, V1, B3, d2, n2.repr, c3, d4, c5, ?_, ?_, ?_, ?_⟩
    · unfold Mat.decSv
      rw [h0]
      simp only [Option.bind_eq_bind, Option.bind_some, a2.cols]
      rw [e1, Option.bind_some, t1, Option.bind_some, w1, Option.bind_some, c2.rows, d1, Option.bind_some, n1, Option.bind_some]
    · intro i j hij
      simp only [mx]
      rw [if_pos]
      exact fun h => hij (Fin.ext h)
    · intro i
      simp [mx, d7 i i.2]
    · rw [d5, Matrix.mul_assoc, Matrix.mul_assoc, ← Matrix.mul_assoc _ B1, c6, ← Matrix.mul_assoc, a6]
    · intro i
      rw [d6]
      simp [mx]

end

/-! ### C77 -/

section
variable {m n : Nat} {A u b v : Mat ℝ} {M : Matrix (Fin m) (Fin n) ℝ}

/-- Square matrices: whatever `householder_bidiag` returns is a decomposition `A = U B Vᵀ` with `U`, `V` orthogonal and `B`
upper bidiagonal. Missing from C77: more rows than columns (`C77_bidiag_tall_violated`) and matrices on which the function
panics (`C77_bidiag_panic_violated`). -/
theorem C77_bidiag_partial {A u b v : Mat ℝ} {M : Matrix (Fin n) (Fin n) ℝ} (hA : Repr A M)
    (h : A.bidiag Real.sqrt = some (u, b, v)) :
    ∃ U B V : Matrix (Fin n) (Fin n) ℝ, Repr u U ∧ Repr b B ∧ Repr v V ∧ U * U.transpose = 1 ∧ V * V.transpose = 1 ∧
      M = U * B * V.transpose ∧ ∀ r c : Fin n, (c : Nat) ≠ r → (c : Nat) ≠ r + 1 → B r c = 0 := by
  obtain ⟨-, -, U, B, E, V, a1, a2, a3, a4, a5, a6, a7, a8, -⟩ := bidiag_inv isSqrt_real hA h
  have hE : E = 0 := by
    ext r c
    by_contra hne
    have := a8 r c hne
    omega
  rw [hE, add_zero] at a6
  exact ⟨U, B, V, a1, a2, a3, a4, a5, a6.symm, a7⟩

/-- Any shape: the product `U B Vᵀ` differs from `A` only by the part of `Uᵀ A V` in the last column below row `n - 1`. -/
theorem C77_bidiag_tall_partial (hA : Repr A M) (h : A.bidiag Real.sqrt = some (u, b, v)) :
    0 < n ∧ n ≤ m ∧ ∃ (U : Matrix (Fin m) (Fin m) ℝ) (B E : Matrix (Fin m) (Fin n) ℝ) (V : Matrix (Fin n) (Fin n) ℝ),
      Repr u U ∧ Repr b B ∧ Repr v V ∧ U * U.transpose = 1 ∧ V * V.transpose = 1 ∧ U * (B + E) * V.transpose = M ∧
      (∀ (r : Fin m) (c : Fin n), (c : Nat) ≠ r → (c : Nat) ≠ r + 1 → B r c = 0) ∧
      (∀ (r : Fin m) (c : Fin n), E r c ≠ 0 → (c : Nat) + 1 = n ∧ n ≤ (r : Nat)) := by
  obtain ⟨a1, a2, U, B, E, V, b1, b2, b3, b4, b5, b6, b7, b8, -⟩ := bidiag_inv isSqrt_real hA h
  exact ⟨a1, a2, U, B, E, V, b1, b2, b3, b4, b5, b6, b7, b8⟩

/-- A matrix with one column `[3, 4]`: `U B Vᵀ = [3, 0]`. -/
theorem C77_bidiag_tall_violated : (⟨2, 1, [3, 4]⟩ : Mat ℚ).bidiag Rat.sqrt =
    some (⟨2, 2, [1, 0, 0, 1]⟩, ⟨2, 1, [3, 0]⟩, ⟨1, 1, [1]⟩) := by decide +kernel

/-- Every matrix with at least two columns whose first column is zero makes `householder_bidiag` and `dec_sv` panic. -/
theorem C77_bidiag_panic_violated (hA : Repr A M) (hn : 1 < n) (h0 : ∀ r, M r ⟨0, by omega⟩ = 0) :
    A.bidiag Real.sqrt = none ∧ A.decSv Real.sqrt = none := by
  have key : A.bidiag Real.sqrt = none := by
    unfold Mat.bidiag
    rw [hA.rows, hA.cols]
    split
    · rfl
    · rename_i hc
      have hstep : Mat.bidiagStep Real.sqrt m n (Mat.one m, A, Mat.one n) 0 = none := by
        unfold Mat.bidiagStep
        simp only [Option.bind_eq_bind]
        obtain ⟨ux, a1, a2⟩ := Mat.getColumn_is hA.is (j := 0) (by omega)
        obtain ⟨us, b1, b2⟩ := Mat.vgetSlice_of (v := ux) (n := m) (s := 0) (e := m - 1) (x := fun r => extM M r 0)
          (fun r hr => a2.vget_col hr) (by rw [a2.hm, a2.hn]; split <;> omega) (by omega) (by omega)
        rw [show m - 1 - 0 + 1 = m by omega] at b2
        rw [a1, Option.bind_some, b1, Option.bind_some]
        have bx : ColRepr us (fun l : Fin m => (0 : ℝ)) := b2.colRepr_of fun l => by
          rw [zero_add, extM_lt M l.2 (by omega)]
          exact h0 l
        obtain ⟨s, s1, s2⟩ := Mat.getSlice_is (r1 := 0) (r2 := m - 1) (c1 := 0) (c2 := n - 1) hA.is (by omega) (by omega)
          (by omega) (by omega)
        rcases householder_is isSqrt_real (k := 0) bx (by omega) (by omega) with ⟨-, e0⟩ | ⟨H, w, al, -, -, -, -, -, -, hal, hz⟩
        · rw [e0, Option.bind_some, s1, Option.bind_some]
          have : (Mat.one 1 : Mat ℝ).mul s = none := by
            unfold Mat.mul
            rw [if_neg]
            rw [s2.hm]
            show ¬ (1 = _)
            omega
          rw [this]
          rfl
        · exfalso
          apply hal
          simpa using hz
      rw [show forRange 0 (n - 1) (Mat.bidiagStep Real.sqrt m n) (Mat.one m, A, Mat.one n) = none from by
        rw [forRange_step (by omega), hstep]; rfl]
      rfl
  refine ⟨key, ?_⟩
  unfold Mat.decSv
  rw [key]
  rfl

/-- `dec_sv` panics on every matrix with more rows than columns. -/
theorem C77_sv_tall_violated (hA : Repr A M) (hmn : n < m) : A.decSv Real.sqrt = none := by
  cases hb : A.bidiag Real.sqrt with
  | none => unfold Mat.decSv; rw [hb]; rfl
  | some ubv =>
    obtain ⟨u, b, v⟩ := ubv
    obtain ⟨hn, -, U, B, E, V, a1, a2, a3, -⟩ := bidiag_inv isSqrt_real hA hb
    unfold Mat.decSv
    rw [hb]
    simp only [Option.bind_eq_bind, Option.bind_some, a2.cols]
    by_cases hn1 : n = 1
    · subst hn1
      have hsweep : ∀ st : Mat ℝ × Mat ℝ × Mat ℝ, st.2.1.n = 1 → Mat.msweep Real.sqrt st = some st := fun st h => by
        unfold Mat.msweep
        rw [h, forRange_empty (by norm_num)]
      obtain ⟨st, e1, e2⟩ := forRange_inv (a := 0) (b := 500 * 1 * 1) (f := fun st _ => Mat.msweep Real.sqrt st)
        (s := ((Mat.one 1 : Mat ℝ), b, v)) (fun _ st => st = (Mat.one 1, b, v)) (by omega) rfl (by
          rintro i t - - rfl
          exact ⟨_, hsweep _ a2.cols, rfl⟩)
      subst e2
      obtain ⟨ut, t1, t2⟩ := Mat.transpose_is (Mat.one_is (K := ℝ) 1) (Or.inl rfl) (Or.inl (by norm_num))
      rw [e1, Option.bind_some, t1, Option.bind_some]
      have : u.mul ut = none := by
        unfold Mat.mul
        rw [if_neg]
        rw [a1.cols, t2.hm]
        omega
      rw [this]
      rfl
    · have hstep : Mat.msweep Real.sqrt (Mat.one n, b, v) = none := by
        have h0 : 0 < n := hn
        unfold Mat.msweep
        simp only [a2.cols]
        rw [forRange_step (by omega)]
        have : Mat.msweepStep Real.sqrt n (Mat.one n, b, v) 0 = none := by
          unfold Mat.msweepStep
          simp only [Option.bind_eq_bind, zero_add]
          rw [a2.is.get (by omega) h0, Option.bind_some, a2.is.get (by omega) (by omega), Option.bind_some]
          generalize Mat.rot Real.sqrt (extM B 0 0) (extM B 0 1) = r
          obtain ⟨q, q1, q2⟩ := putRot_is (k := 0) (by omega) (Mat.one_is (K := ℝ) n) (fun a b _ _ _ => rfl) r.1 r.2.1
          obtain ⟨qt, t1, t2⟩ := Mat.transpose_is q2.is (Or.inl rfl) (Or.inl hn)
          have t3 : Repr qt (givensM (⟨0, by omega⟩ : Fin n) ⟨0 + 1, by omega⟩ r.1 r.2.1).transpose :=
            t2.repr_of fun a b => extM_apply _ b a
          obtain ⟨b1, b2, b3⟩ := repr_mul a2 t3
          obtain ⟨v1, v2, v3⟩ := repr_mul a3 t3
          rw [q1, Option.bind_some, t1, Option.bind_some, b2, Option.bind_some, v2, Option.bind_some]
          rw [b3.is.get (by omega) h0, Option.bind_some, b3.is.get (by omega) h0, Option.bind_some]
          generalize Mat.rot Real.sqrt _ _ = r'
          obtain ⟨p, p1, p2⟩ := putRot_is (k := 0) (by omega) q2.is (by
            intro a b ha hb hab
            rw [extM_lt _ ha hb]
            simp only [givensM, Matrix.of_apply, Fin.ext_iff]
            by_cases e1 : a = 0
            · rw [if_pos e1, if_neg (by omega), if_neg (by omega), if_neg (by omega), add_zero]
            · by_cases e2 : a = 0 + 1
              · rw [if_neg e1, if_pos e2, if_neg (by omega), if_neg (by omega), if_neg (by omega), add_zero]
              · rw [if_neg e1, if_neg e2]
                simp only [eq_comm]) r'.1 r'.2.1
          have : p.mul b1 = none := by
            unfold Mat.mul
            rw [if_neg]
            rw [p2.cols, b3.rows]
            omega
          rw [p1, Option.bind_some, this]
          rfl
        rw [this]
        rfl
      rw [forRange_step (by have : 0 < n * n := Nat.mul_pos hn hn; nlinarith), hstep]
      rfl

end

section
variable {n : Nat} {A u s v : Mat ℝ} {M : Matrix (Fin n) (Fin n) ℝ}

/-- Square matrices: whatever `dec_sv` returns has `U`, `V` orthogonal and `S` diagonal with non-negative entries, and
`A = U (S + E) Vᵀ` where `E` has zero diagonal; so `S` is the diagonal of a matrix with the singular values of `A`.
Missing from C77: `E = 0` (the sweeps stop after a fixed number of rounds without a test; `C77_sv_iff` says when `E = 0`)
and the cases in which the function panics. -/
theorem C77_sv_partial (hA : Repr A M) (h : A.decSv Real.sqrt = some (u, s, v)) :
    ∃ U S V E : Matrix (Fin n) (Fin n) ℝ, Repr u U ∧ Repr s S ∧ Repr v V ∧ U * U.transpose = 1 ∧ V * V.transpose = 1 ∧
      (∀ i j, i ≠ j → S i j = 0) ∧ (∀ i, 0 ≤ S i i) ∧ M = U * (S + E) * V.transpose ∧ (∀ i, E i i = 0) := by
  obtain ⟨h1, h2⟩ := decSv_inv isSqrt_real hA
  obtain ⟨u', s', v', e, U, S, V, B, a1, a2, a3, a4, a5, a6, a7, a8, a9⟩ := h2 (fun h' => by
    rw [h1 h'] at h; cases h)
  rw [e] at h
  cases h
  refine ⟨U, S, V, B - S, a1, a2, a3, a4, a5, a6, a7, ?_, fun i => ?_⟩
  · rw [add_sub_cancel, a8]
  · rw [Matrix.sub_apply, a9, sub_self]

theorem frob_orth {U : Matrix (Fin n) (Fin n) ℝ} (h : U.transpose * U = 1) (B : Matrix (Fin n) (Fin n) ℝ) :
    ∑ i, ∑ j, (U * B) i j * (U * B) i j = ∑ i, ∑ j, B i j * B i j := by
  have e : ∀ X : Matrix (Fin n) (Fin n) ℝ, ∑ i, ∑ j, X i j * X i j = (X.transpose * X).trace := by
    intro X
    rw [Matrix.trace, sum_comm]
    simp only [Matrix.diag_apply, Matrix.mul_apply, Matrix.transpose_apply]
  rw [e, e, Matrix.transpose_mul, Matrix.mul_assoc, ← Matrix.mul_assoc _ U, h, Matrix.one_mul]

/-- The sum of the squares of the computed singular values is at most that of the entries of `A`, and the two agree
exactly when `A = U S Vᵀ`. -/
theorem C77_sv_iff (hA : Repr A M) (h : A.decSv Real.sqrt = some (u, s, v)) :
    ∃ U S V : Matrix (Fin n) (Fin n) ℝ, Repr u U ∧ Repr s S ∧ Repr v V ∧
      ∑ i, S i i * S i i ≤ ∑ i, ∑ j, M i j * M i j ∧
      (M = U * S * V.transpose ↔ ∑ i, S i i * S i i = ∑ i, ∑ j, M i j * M i j) := by
  obtain ⟨U, S, V, E, a1, a2, a3, a4, a5, a6, a7, a8, a9⟩ := C77_sv_partial hA h
  have oU : U.transpose * U = 1 := by rw [mul_eq_one_comm]; exact a4
  have hM : ∑ i, ∑ j, M i j * M i j = ∑ i, ∑ j, (S + E) i j * (S + E) i j := by
    have h1 := frob_orth oU ((S + E) * V.transpose)
    rw [← Matrix.mul_assoc, ← a8] at h1
    rw [h1]
    have h2 := frob_orth (U := V) (by rw [mul_eq_one_comm]; exact a5) (S + E).transpose
    rw [← Matrix.transpose_transpose (V * (S + E).transpose), Matrix.transpose_mul, Matrix.transpose_transpose] at h2
    simp only [Matrix.transpose_apply] at h2
    rw [sum_comm, h2, sum_comm]
  have hsplit : ∑ i, ∑ j, (S + E) i j * (S + E) i j = ∑ i, S i i * S i i + ∑ i, ∑ j, E i j * E i j := by
    rw [← sum_add_distrib]
    refine sum_congr rfl fun i _ => ?_
    have : ∀ j, (S + E) i j * (S + E) i j = (if j = i then S i i * S i i else 0) + E i j * E i j := by
      intro j
      by_cases e : j = i
      · subst e
        simp [a9]
      · simp [e, a6 i j (Ne.symm e)]
    simp only [this, sum_add_distrib, sum_ite_eq', mem_univ, if_true]
  have hnn : 0 ≤ ∑ i, ∑ j, E i j * E i j := sum_nonneg fun i _ => sum_nonneg fun j _ => mul_self_nonneg _
  refine ⟨U, S, V, a1, a2, a3, by rw [hM, hsplit]; linarith, fun hx => ?_, fun hx => ?_⟩
  · have hE : S + E = S := by
      rw [hx] at a8
      have := congrArg (fun X => U.transpose * X * V) a8
      rw [← Matrix.mul_assoc, ← Matrix.mul_assoc, ← Matrix.mul_assoc, ← Matrix.mul_assoc, oU, Matrix.one_mul, Matrix.one_mul,
        Matrix.mul_assoc, Matrix.mul_assoc, show V.transpose * V = 1 by rw [mul_eq_one_comm]; exact a5, Matrix.mul_one,
        Matrix.mul_one] at this
      exact this.symm
    have hE0 : E = 0 := by simpa using hE
    rw [hM, hsplit, hE0]
    simp
  · rw [hM, hsplit] at hx
    have h0 : ∑ i, ∑ j, E i j * E i j = 0 := by linarith
    have hE0 : E = 0 := by
      ext i j
      have h1 := (sum_eq_zero_iff_of_nonneg (fun i _ => sum_nonneg fun j _ => mul_self_nonneg _)).1 h0 i (mem_univ i)
      have h2 := (sum_eq_zero_iff_of_nonneg (fun j _ => mul_self_nonneg _)).1 h1 j (mem_univ j)
      exact mul_self_eq_zero.1 h2
    rw [a8, hE0, add_zero]

/-- `dec_sv` of a square matrix returns exactly when `householder_bidiag` does. -/
theorem C77_sv_returns (hA : Repr A M) : A.decSv Real.sqrt = none ↔ A.bidiag Real.sqrt = none := by
  obtain ⟨h1, h2⟩ := decSv_inv isSqrt_real hA
  refine ⟨fun h => ?_, h1⟩
  by_contra hne
  obtain ⟨u, s, v, e, -⟩ := h2 hne
  rw [h] at e
  cases e

/-- A `1×1` matrix is decomposed exactly. -/
theorem C77_sv_one {A : Mat ℝ} {M : Matrix (Fin 1) (Fin 1) ℝ} (hA : Repr A M) :
    ∃ u s v, A.decSv Real.sqrt = some (u, s, v) ∧ ∃ U S V : Matrix (Fin 1) (Fin 1) ℝ, Repr u U ∧ Repr s S ∧ Repr v V ∧
      U * U.transpose = 1 ∧ V * V.transpose = 1 ∧ S 0 0 = |M 0 0| ∧ M = U * S * V.transpose := by
  have hne : A.bidiag Real.sqrt ≠ none := by
    unfold Mat.bidiag
    rw [hA.rows, hA.cols, if_neg (by norm_num), forRange_empty (by norm_num)]
    obtain ⟨b', b1, -⟩ := nullRows (fun i k => k ≠ i ∧ k ≠ i + 1) hA.is
    simp only [Option.bind_eq_bind, Option.bind_some]
    rw [b1]
    simp
  obtain ⟨u, s, v, h0, -⟩ := (decSv_inv isSqrt_real hA).2 hne
  obtain ⟨U, S, V, E, a1, a2, a3, a4, a5, a6, a7, a8, a9⟩ := C77_sv_partial hA h0
  have hE : E = 0 := by
    ext i j
    rw [Subsingleton.elim j i]
    exact a9 i
  rw [hE, add_zero] at a8
  refine ⟨u, s, v, h0, U, S, V, a1, a2, a3, a4, a5, ?_, a8⟩
  have e1 := congrFun (congrFun a8 0) 0
  have e2 := congrFun (congrFun a4 0) 0
  have e3 := congrFun (congrFun a5 0) 0
  simp [Matrix.mul_apply] at e1 e2 e3
  have : M 0 0 * M 0 0 = S 0 0 * S 0 0 := by
    rw [e1]
    linear_combination (S 0 0 * S 0 0) * (V 0 0 * V 0 0) * e2 + (S 0 0 * S 0 0) * e3
  rw [← abs_of_nonneg (a7 0)]
  exact (abs_eq_abs.2 (mul_self_eq_mul_self_iff.1 this)).symm

example : (⟨1, 1, [-3]⟩ : Mat ℚ).decSv Rat.sqrt = some (⟨1, 1, [-1]⟩, ⟨1, 1, [3]⟩, ⟨1, 1, [1]⟩) := by decide +kernel

example : (⟨2, 2, [7, 24, 25, 0]⟩ : Mat ℚ).bidiag Rat.sqrt =
    some (⟨2, 2, [-7/25, -24/25, -24/25, 7/25]⟩, ⟨2, 2, [-25, 0, -7, -24]⟩, ⟨2, 2, [1, 0, 0, 1]⟩) := by decide +kernel

end
end Verif
