import Verif.RowColModel
import Verif.TransposeLemmas

/-! # Lemmas about vectors, rows, columns and slices -/

namespace Verif
variable {K : Type}

/-- Specification: `v` is the column vector with entries `x`. -/
def ColRepr {n : Nat} (v : Mat K) (x : Fin n → K) : Prop := v = ⟨n, 1, List.ofFn x⟩

/-- Specification: `v` is the row vector with entries `x`. -/
def RowRepr {n : Nat} (v : Mat K) (x : Fin n → K) : Prop := v = ⟨1, n, List.ofFn x⟩

/-- extension of a finite vector by zero -/
def extV [Zero K] {n : Nat} (x : Fin n → K) : Nat → K := fun i => if h : i < n then x ⟨i, h⟩ else 0

theorem extV_apply [Zero K] {n : Nat} (x : Fin n → K) (i : Fin n) : extV x i = x i := by
  simp [extV]

theorem extV_lt [Zero K] {n : Nat} (x : Fin n → K) {i : Nat} (h : i < n) :
    extV x i = x ⟨i, h⟩ := by
  simp [extV, h]

theorem ColRepr.is [Zero K] {n : Nat} {v : Mat K} {x : Fin n → K} (h : ColRepr v x) :
    v.Is n 1 (fun i _ => extV x i) := by
  subst h
  refine ⟨rfl, rfl, by simp, ?_⟩
  intro i j hi hj
  have : j = 0 := by omega
  subst this
  simp [extV, hi]

theorem RowRepr.is [Zero K] {n : Nat} {v : Mat K} {x : Fin n → K} (h : RowRepr v x) :
    v.Is 1 n (fun _ i => extV x i) := by
  subst h
  refine ⟨rfl, rfl, by simp, ?_⟩
  intro i j hi hj
  have : i = 0 := by omega
  subst this
  simp [extV, hj]

theorem Mat.Is.colRepr {n : Nat} {v : Mat K} {f} (h : v.Is n 1 f) :
    ColRepr v (fun i : Fin n => f i 0) := by
  refine h.ext (g := f) ⟨rfl, rfl, by simp, ?_⟩ (fun _ _ _ _ => rfl)
  intro i j hi hj
  have : j = 0 := by omega
  subst this
  simp [hi]

theorem Mat.Is.rowRepr {n : Nat} {v : Mat K} {f} (h : v.Is 1 n f) :
    RowRepr v (fun i : Fin n => f 0 i) := by
  refine h.ext (g := f) ⟨rfl, rfl, by simp, ?_⟩ (fun _ _ _ _ => rfl)
  intro i j hi hj
  have : i = 0 := by omega
  subst this
  simp [hj]

theorem Mat.Is.colRepr_of {n : Nat} {v : Mat K} {f} (h : v.Is n 1 f) {x : Fin n → K}
    (hx : ∀ i : Fin n, f i 0 = x i) : ColRepr v x := by
  have := h.colRepr
  rwa [funext hx] at this

theorem Mat.Is.rowRepr_of {n : Nat} {v : Mat K} {f} (h : v.Is 1 n f) {x : Fin n → K}
    (hx : ∀ i : Fin n, f 0 i = x i) : RowRepr v x := by
  have := h.rowRepr
  rwa [funext hx] at this

namespace Mat

theorem Is.vget_col {v : Mat K} {n : Nat} {f} (h : v.Is n 1 f) {i : Nat} (hi : i < n) :
    v.vget i = some (f i 0) := by
  simp only [vget, h.hm, h.hn]
  by_cases e : n = 1
  · have : i = 0 := by omega
    subst this; subst e
    simp [h.get]
  · simp [e, hi, h.get hi (by omega : (0:Nat) < 1)]

theorem Is.vget_row {v : Mat K} {n : Nat} {f} (h : v.Is 1 n f) {i : Nat} (hi : i < n) :
    v.vget i = some (f 0 i) := by
  simp [vget, h.hm, h.hn, hi, h.get (by omega : (0:Nat) < 1) hi]

theorem Is.vget_col_none {v : Mat K} {n : Nat} {f} (h : v.Is n 1 f) {i : Nat} (hi : ¬ i < n) :
    v.vget i = none := by
  simp only [vget, h.hm, h.hn]
  by_cases e : n = 1
  · have : ¬ i < 1 := by omega
    simp [e]; omega
  · simp [e]; omega

theorem Is.vset_col {v : Mat K} {n : Nat} {f} (h : v.Is n 1 f) {i : Nat} (hi : i < n) (x : K) :
    v.vset i x = some (v.put i 0 x) := by
  simp only [vset, h.hm, h.hn]
  by_cases e : n = 1
  · have : i = 0 := by omega
    subst this; subst e
    simp [h.set]
  · simp [e, hi, h.set hi (by omega : (0:Nat) < 1)]

theorem Is.vset_row {v : Mat K} {n : Nat} {f} (h : v.Is 1 n f) {i : Nat} (hi : i < n) (x : K) :
    v.vset i x = some (v.put 0 i x) := by
  simp [vset, h.hm, h.hn, hi, h.set (by omega : (0:Nat) < 1) hi]

/-- a loop that fills a column vector -/
theorem fillCol {n : Nat} (x : Nat → K) {v : Mat K} {f} (hv : v.Is n 1 f)
    (F : Mat K → Nat → Option (Mat K))
    (hF : ∀ w i, i < n → (∃ g, w.Is n 1 g) → F w i = w.vset i (x i)) :
    ∃ w, forRange 0 n F v = some w ∧ w.Is n 1 (fun i _ => x i) := by
  have := forRange_inv (a := 0) (b := n) (s := v) (f := F)
    (fun k w => w.Is n 1 (fun i j => if i < k then x i else f i j)) (by omega)
    (by simpa using hv) (by
      intro i w _ hi hw
      refine ⟨_, (hF w i hi ⟨_, hw⟩).trans (hw.vset_col hi _), (hw.put hi (by omega) _).congr ?_⟩
      intro a b ha hb
      by_cases e : a = i
      · subst e
        have : b = 0 := by omega
        subst this; simp
      · rw [upd_ne _ _ (fun h => e h.1)]
        have : a < i ↔ a < i + 1 := by omega
        simp only [this])
  obtain ⟨w, h1, h2⟩ := this
  exact ⟨w, h1, h2.congr (by intro i j hi hj; simp [hi])⟩

/-- a loop that fills a row vector -/
theorem fillRow {n : Nat} (x : Nat → K) {v : Mat K} {f} (hv : v.Is 1 n f)
    (F : Mat K → Nat → Option (Mat K))
    (hF : ∀ w i, i < n → (∃ g, w.Is 1 n g) → F w i = w.vset i (x i)) :
    ∃ w, forRange 0 n F v = some w ∧ w.Is 1 n (fun _ i => x i) := by
  have := forRange_inv (a := 0) (b := n) (s := v) (f := F)
    (fun k w => w.Is 1 n (fun i j => if j < k then x j else f i j)) (by omega)
    (by simpa using hv) (by
      intro i w _ hi hw
      refine ⟨_, (hF w i hi ⟨_, hw⟩).trans (hw.vset_row hi _), (hw.put (by omega) hi _).congr ?_⟩
      intro a b ha hb
      by_cases e : b = i
      · subst e
        have : a = 0 := by omega
        subst this; simp
      · rw [upd_ne _ _ (fun h => e h.2)]
        have : b < i ↔ b < i + 1 := by omega
        simp only [this])
  obtain ⟨w, h1, h2⟩ := this
  exact ⟨w, h1, h2.congr (by intro i j hi hj; simp [hj])⟩

theorem transpose_is [Zero K] {A : Mat K} {m n : Nat} {f} (hA : A.Is m n f)
    (h : m = n ∨ m = 1 ∨ n = 1) (h0 : 0 < m ∨ 0 < n) :
    ∃ B, A.transpose = some B ∧ B.Is n m (fun i j => f j i) := transposeWith_is _ hA h h0

section Ops
variable [Zero K] [One K] [Add K] [Sub K] [Mul K] [Div K]

theorem vzero_is (n : Nat) : (vzero n : Mat K).Is n 1 (fun _ _ => 0) := zero_is n 1

theorem vone_is (n : Nat) : (vone n : Mat K).Is n 1 (fun _ _ => 1) := by
  refine ⟨rfl, rfl, by simp [vone], ?_⟩
  intro i j hi hj
  have : j = 0 := by omega
  subst this
  simp [vone, hi]

theorem getColumn_is {A : Mat K} {m n : Nat} {f} (hA : A.Is m n f) {j : Nat} (hj : j < n) :
    ∃ v, A.getColumn j = some v ∧ v.Is m 1 (fun i _ => f i j) := by
  have := fillCol (fun i => f i j) (vzero_is (K := K) m)
    (fun v k => do
      let x ← A.get k j
      v.vset k x) (by
      intro w i hi _
      simp [hA.get hi hj])
  simpa [getColumn, hA.hm, hA.hn, hj] using this

theorem getRow_is {A : Mat K} {m n : Nat} {f} (hA : A.Is m n f) {i : Nat} (hi : i < m) :
    ∃ v, A.getRow i = some v ∧ v.Is 1 n (fun _ j => f i j) := by
  obtain ⟨z, hz, hz2⟩ := transpose_is (vzero_is (K := K) n) (Or.inr (Or.inr rfl)) (Or.inr (by omega))
  have := fillRow (fun j => f i j) hz2
    (fun v k => do
      let x ← A.get i k
      v.vset k x) (by
      intro w k hk _
      simp [hA.get hi hk])
  simpa [getRow, hA.hm, hA.hn, hi, hz] using this

end Ops

section Field
variable [Field K]

/-- trace loop -/
theorem trace_is {A : Mat K} {n : Nat} {f} (hA : A.Is n n f) :
    A.trace = some (∑ i ∈ Finset.range n, f i i) := by
  have := sumLoop (a := 0) (b := n) (fun i => f i i)
    (fun sum i => do
      let x ← A.get i i
      some (sum + x)) (0 : K) (by
      intro s k _ hk
      simp [hA.get hk hk])
  simpa [trace, hA.hm, hA.hn] using this

end Field

theorem setColumn_is {A v : Mat K} {m n : Nat} {f g} (hA : A.Is m n f) (hv : v.Is m 1 g)
    {j : Nat} (hj : j < n) :
    ∃ B, A.setColumn v j = some B ∧ B.Is m n (fun a b => if b = j then g a 0 else f a b) := by
  have := forRange_inv (a := 0) (b := m) (s := A) (f := fun A k => do
    let x ← v.vget k
    A.set k j x)
    (fun k B => B.Is m n (fun a b => if b = j ∧ a < k then g a 0 else f a b)) (by omega)
    (by simpa using hA) (by
      intro i B _ hi hB
      refine ⟨B.put i j (g i 0), ?_, ?_⟩
      · simp [hv.vget_col hi, hB.set hi hj]
      · refine (hB.put hi hj _).congr ?_
        intro a b ha hb
        by_cases e : a = i ∧ b = j
        · obtain ⟨rfl, rfl⟩ := e; simp
        · rw [upd_ne _ _ e]
          have : (b = j ∧ a < i) ↔ (b = j ∧ a < i + 1) := by omega
          simp only [this])
  obtain ⟨B, h1, h2⟩ := this
  refine ⟨B, by simpa [setColumn, hA.hm, hv.hm] using h1, h2.congr ?_⟩
  intro i j hi hj; simp [hi]

theorem setRow_is {A v : Mat K} {m n : Nat} {f g} (hA : A.Is m n f) (hv : v.Is 1 n g)
    {i : Nat} (hi : i < m) :
    ∃ B, A.setRow v i = some B ∧ B.Is m n (fun a b => if a = i then g 0 b else f a b) := by
  have := forRange_inv (a := 0) (b := n) (s := A) (f := fun A k => do
    let x ← v.vget k
    A.set i k x)
    (fun k B => B.Is m n (fun a b => if a = i ∧ b < k then g 0 b else f a b)) (by omega)
    (by simpa using hA) (by
      intro j B _ hj hB
      refine ⟨B.put i j (g 0 j), ?_, ?_⟩
      · simp [hv.vget_row hj, hB.set hi hj]
      · refine (hB.put hi hj _).congr ?_
        intro a b ha hb
        by_cases e : a = i ∧ b = j
        · obtain ⟨rfl, rfl⟩ := e; simp
        · rw [upd_ne _ _ e]
          have : (a = i ∧ b < j) ↔ (a = i ∧ b < j + 1) := by omega
          simp only [this])
  obtain ⟨B, h1, h2⟩ := this
  refine ⟨B, by simpa [setRow, hA.hn, hv.hn] using h1, h2.congr ?_⟩
  intro i j hi hj; simp [hj]

/-- A double loop over the block `[r1,r2) × [c1,c2)` writing `v r c` at `(r, c)`. -/
theorem blockLoop {m n r1 r2 c1 c2 : Nat} (v : Nat → Nat → K) {A : Mat K} {f}
    (hA : A.Is m n f) (hr : r1 ≤ r2) (hc : c1 ≤ c2) (hr2 : r2 ≤ m) (hc2 : c2 ≤ n)
    (F : Mat K → Nat → Nat → Option (Mat K))
    (hF : ∀ B r c, r1 ≤ r → r < r2 → c1 ≤ c → c < c2 → (∃ g, B.Is m n g) →
      F B r c = B.set r c (v r c)) :
    ∃ C, forRange r1 r2 (fun B r => forRange c1 c2 (fun B c => F B r c) B) A = some C ∧
      C.Is m n (fun i j => if r1 ≤ i ∧ i < r2 ∧ c1 ≤ j ∧ j < c2 then v i j else f i j) := by
  have := forRange_inv (a := r1) (b := r2) (s := A)
    (f := fun B r => forRange c1 c2 (fun B c => F B r c) B)
    (fun k B => B.Is m n (fun i j => if r1 ≤ i ∧ i < k ∧ c1 ≤ j ∧ j < c2 then v i j else f i j))
    hr
    (hA.congr (by
      intro i j hi hj
      have : ¬ (r1 ≤ i ∧ i < r1 ∧ c1 ≤ j ∧ j < c2) := by omega
      simp [this])) (by
      intro r B h1 h2 hB
      have := forRange_inv (a := c1) (b := c2) (s := B) (f := fun B c => F B r c)
        (fun k B => B.Is m n (fun i j =>
          if r1 ≤ i ∧ (i < r ∨ i = r ∧ j < k) ∧ c1 ≤ j ∧ j < c2 then v i j else f i j))
        hc (hB.congr (by
          intro i j hi hj
          have : (r1 ≤ i ∧ (i < r ∨ i = r ∧ j < c1) ∧ c1 ≤ j ∧ j < c2) ↔
            (r1 ≤ i ∧ i < r ∧ c1 ≤ j ∧ j < c2) := by omega
          simp only [this])) (by
          intro c B' h3 h4 hB'
          refine ⟨_, (hF B' r c h1 h2 h3 h4 ⟨_, hB'⟩).trans
            (hB'.set (by omega) (by omega) _), ?_⟩
          refine (hB'.put (by omega) (by omega) _).congr ?_
          intro a b ha hb
          by_cases e : a = r ∧ b = c
          · obtain ⟨rfl, rfl⟩ := e
            have : r1 ≤ a ∧ (a < a ∨ a = a ∧ b < b + 1) ∧ c1 ≤ b ∧ b < c2 := by omega
            rw [upd_same, if_pos this]
          · rw [upd_ne _ _ e]
            have : (r1 ≤ a ∧ (a < r ∨ a = r ∧ b < c) ∧ c1 ≤ b ∧ b < c2) ↔
              (r1 ≤ a ∧ (a < r ∨ a = r ∧ b < c + 1) ∧ c1 ≤ b ∧ b < c2) := by omega
            simp only [this])
      obtain ⟨C, hC, hC2⟩ := this
      refine ⟨C, hC, hC2.congr ?_⟩
      intro i j hi hj
      have : (r1 ≤ i ∧ (i < r ∨ i = r ∧ j < c2) ∧ c1 ≤ j ∧ j < c2) ↔
            (r1 ≤ i ∧ i < r + 1 ∧ c1 ≤ j ∧ j < c2) := by omega
      simp only [this])
  exact this

theorem setSlice_is {A S : Mat K} {m n p q r c : Nat} {f g} (hA : A.Is m n f) (hS : S.Is p q g)
    (hr : r + p ≤ m) (hc : c + q ≤ n) :
    ∃ B, A.setSlice S r c = some B ∧ B.Is m n
      (fun i j => if r ≤ i ∧ i < r + p ∧ c ≤ j ∧ j < c + q then g (i - r) (j - c) else f i j) := by
  have := blockLoop (r1 := r) (r2 := r + p) (c1 := c) (c2 := c + q)
    (fun i j => g (i - r) (j - c)) hA (by omega) (by omega) hr hc
    (fun A i j => do
        let x ← S.get (i - r) (j - c)
        A.set i j x) (by
      intro B i j h1 h2 h3 h4 _
      simp [hS.get (i := i - r) (j := j - c) (by omega) (by omega)])
  simpa [setSlice, hA.hm, hA.hn, hS.hm, hS.hn, hr, hc] using this

/-- shifting of a loop -/
theorem forRange_shift {σ : Type} (a k : Nat) (f : σ → Nat → Option σ) (s : σ) :
    forRange a (a + k) f s = forRange 0 k (fun s i => f s (a + i)) s := by
  induction k with
  | zero => simp [forRange_empty]
  | succ k ih =>
    rw [← Nat.add_assoc, forRange_succ (by omega), forRange_succ (by omega), ih]

theorem getSlice_is [Field K] {A : Mat K} {m n r1 r2 c1 c2 : Nat} {f} (hA : A.Is m n f)
    (hr : r1 ≤ r2) (hc : c1 ≤ c2) (hr2 : r2 < m) (hc2 : c2 < n) :
    ∃ B, A.getSlice r1 r2 c1 c2 = some B ∧ B.Is (r2 - r1 + 1) (c2 - c1 + 1)
      (fun i j => f (r1 + i) (c1 + j)) := by
  have := fillLoop (m := r2 - r1 + 1) (n := c2 - c1 + 1) (fun i j => f (r1 + i) (c1 + j))
    (zero_is (K := K) _ _)
    (fun S i j => do
        let x ← A.get (r1 + i) (c1 + j)
        S.set i j x) (by
      intro B i j h1 h2 _
      simp [hA.get (i := r1 + i) (j := c1 + j) (by omega) (by omega)])
  obtain ⟨C, h1, h2⟩ := this
  refine ⟨C, ?_, h2⟩
  unfold getSlice
  rw [if_pos ⟨by rw [hA.hm]; omega, by rw [hA.hm]; omega, by rw [hA.hn]; omega,
    by rw [hA.hn]; omega, hr, hc⟩]
  rw [show r2 + 1 = r1 + (r2 - r1 + 1) by omega, forRange_shift]
  have e : ∀ k, r1 + k - r1 = k := by omega
  have e2 : ∀ k, c1 + k - c1 = k := by omega
  simp only [show c2 + 1 = c1 + (c2 - c1 + 1) by omega, forRange_shift, e, e2]
  exact h1

theorem swapRows_is {A : Mat K} {m n : Nat} {f} (hA : A.Is m n f) {i j : Nat} (hi : i < m)
    (hj : j < m) :
    ∃ B, A.swapRows i j = some B ∧
      B.Is m n (fun a b => if a = i then f j b else if a = j then f i b else f a b) := by
  have := forRange_inv (a := 0) (b := n) (s := A) (f := fun A k => do
    let temp ← A.get i k
    let b ← A.get j k
    let A ← A.set i k b
    A.set j k temp)
    (fun k B => B.Is m n (fun a b => if b < k then
      (if a = i then f j b else if a = j then f i b else f a b) else f a b)) (by omega)
    (by simpa using hA) (by
      intro k B _ hk hB
      have e1 := hB.get hi hk
      have e2 := hB.get hj hk
      simp only [lt_self_iff_false, if_false] at e1 e2
      have hB1 := hB.put hi hk (f j k)
      refine ⟨(B.put i k (f j k)).put j k (f i k), ?_, ?_⟩
      · simp [e1, e2, hB.set hi hk, hB1.set hj hk]
      · refine (hB1.put hj hk _).congr ?_
        intro a b ha hb
        by_cases eb : b = k
        · subst eb
          have : b < b + 1 := by omega
          simp only [this, if_true]
          by_cases e : a = j
          · subst e
            rw [upd_same]
            by_cases e' : a = i
            · subst e'; simp
            · simp [e']
          · rw [upd_ne _ _ (fun h => e h.1)]
            by_cases e' : a = i
            · subst e'; simp
            · rw [upd_ne _ _ (fun h => e' h.1)]
              simp [e, e']
        · rw [upd_ne _ _ (fun h => eb h.2), upd_ne _ _ (fun h => eb h.2)]
          have : b < k ↔ b < k + 1 := by omega
          simp only [this])
  obtain ⟨B, h1, h2⟩ := this
  refine ⟨B, by simpa [swapRows, hA.hn] using h1, h2.congr ?_⟩
  intro i j hi hj; simp [hj]

end Mat
end Verif
