import Verif.QRProps
import Verif.LUProps

/-!
# C16: the Cholesky decomposition
-/

namespace Verif
open Finset

section
variable {K : Type} [Field K] [LinearOrder K] [IsStrictOrderedRing K] {sqrt : K → K}

/-- entries computed before entry `(i, j)` -/
def cholDone (i j r c : Nat) : Prop := c ≤ r ∧ (r < i ∨ (r = i ∧ c < j))

/-- invariant of the factorisation before entry `(i, j)` -/
def CholInv (n : Nat) (a : Nat → Nat → K) (i j : Nat) (l : Mat K) : Prop :=
  ∃ g : Nat → Nat → K, l.Is n n g ∧ (∀ r c, r < n → c < n → ¬ cholDone i j r c → g r c = 0) ∧
    ∀ r c, r < n → cholDone i j r c →
      (∑ k ∈ range (c + 1), g r k * g c k = a r c) ∧ (r = c → 0 ≤ g r c) ∧ (c < r → g c c ≠ 0)

theorem cholEntry_step (hs : IsSqrt sqrt) {n i j : Nat} {A l : Mat K} {a g : Nat → Nat → K} (hA : A.Is n n a)
    (hi : i < n) (hj : j ≤ i) (hl : l.Is n n g)
    (hz : ∀ r c, r < n → c < n → ¬ cholDone i j r c → g r c = 0)
    (hd : ∀ r c, r < n → cholDone i j r c →
      (∑ k ∈ range (c + 1), g r k * g c k = a r c) ∧ (r = c → 0 ≤ g r c) ∧ (c < r → g c c ≠ 0)) :
    let sum := ∑ k ∈ range j, g i k * g j k
    let ok := if i = j then ¬ (a i i - sum < 0) else g j j ≠ 0
    let v := if i = j then sqrt (a i i - sum) else (a i j - sum) / g j j
    Mat.cholEntry sqrt A i l j = (if ok then some (l.put i j v) else none) ∧
      (ok → (l.put i j v).Is n n (upd g i j v) ∧
        (∀ r c, r < n → c < n → ¬ cholDone i (j + 1) r c → upd g i j v r c = 0) ∧
        ∀ r c, r < n → cholDone i (j + 1) r c →
          (∑ k ∈ range (c + 1), upd g i j v r k * upd g i j v c k = a r c) ∧ (r = c → 0 ≤ upd g i j v r c) ∧
          (c < r → upd g i j v c c ≠ 0)) := by
  intro sum ok v
  have hsum : forRange 0 j (fun sum k => do
      let x ← l.get i k
      let y ← l.get j k
      some (sum + x * y)) (0 : K) = some sum := by
    rw [Mat.sumLoop (fun k => g i k * g j k)]
    · simp [sum]
    · intro s k _ hk
      simp [hl.get (i := i) (j := k) hi (by omega), hl.get (i := j) (j := k) (by omega) (by omega)]
  refine ⟨?_, ?_⟩
  · unfold Mat.cholEntry
    simp only [Option.bind_eq_bind] at hsum ⊢
    rw [hsum]
    simp only [Option.bind_some]
    by_cases e : i = j
    · subst e
      simp only [if_true, hA.get hi hi, Option.bind_some, ok, v]
      by_cases c : a i i - sum < 0
      · simp [c]
      · simp [c, hl.set hi hi]
    · simp only [if_neg e, hA.get (i := i) (j := j) hi (by omega), hl.get (i := j) (j := j) (by omega) (by omega),
        Option.bind_some, ok, v]
      by_cases c : g j j = 0
      · simp [c]
      · simp [c, hl.set (i := i) (j := j) hi (by omega)]
  · intro hok
    refine ⟨hl.put hi (by omega) v, ?_, ?_⟩
    · intro r c hr hc hnd
      have hne : ¬ (r = i ∧ c = j) := by
        rintro ⟨rfl, rfl⟩; apply hnd; exact ⟨hj, Or.inr ⟨rfl, by omega⟩⟩
      rw [upd_ne _ _ hne]
      apply hz r c hr hc
      rintro ⟨h1, h2⟩
      exact hnd ⟨h1, by omega⟩
    · intro r c hr hcd
      obtain ⟨h1, h2⟩ := hcd
      by_cases e : r = i ∧ c = j
      · obtain ⟨rfl, rfl⟩ := e
        have hpre : ∑ k ∈ range c, upd g r c v r k * upd g r c v c k = sum := by
          refine sum_congr rfl (fun k hk => ?_)
          have hk' := mem_range.mp hk
          rw [upd_ne _ _ (by omega), upd_ne _ _ (by omega)]
        rw [sum_range_succ, hpre, upd_same]
        by_cases e2 : r = c
        · subst e2
          simp only [if_true, ok, v, not_lt] at hok ⊢
          obtain ⟨s1, s2⟩ := hs _ hok
          rw [upd_same]
          exact ⟨by linear_combination s2, fun _ => s1, fun h => absurd h (lt_irrefl _)⟩
        · simp only [if_neg e2, ok, v] at hok ⊢
          rw [upd_ne _ _ (by omega)]
          exact ⟨by field_simp; ring, fun h => absurd h e2, fun _ => hok⟩
      · have hdone : cholDone i j r c := ⟨h1, by omega⟩
        obtain ⟨d1, d2, d3⟩ := hd r c hr hdone
        have hsame : ∀ k, k ≤ c → upd g i j v r k = g r k ∧ upd g i j v c k = g c k := by
          intro k hk
          exact ⟨upd_ne _ _ (by omega), upd_ne _ _ (by omega)⟩
        refine ⟨?_, ?_, ?_⟩
        · rw [← d1]
          refine sum_congr rfl (fun k hk => ?_)
          have hk' := mem_range.mp hk
          rw [(hsame k (by omega)).1, (hsame k (by omega)).2]
        · rw [(hsame c le_rfl).1]; exact d2
        · rw [(hsame c le_rfl).2]; exact d3

/-- pivots are positive on positive definite input -/
theorem chol_pivot_pos {n i : Nat} {a g : Nat → Nat → K} (hi : i < n) (hsym : ∀ r c, r < n → c < n → a r c = a c r)
    (hpd : ∀ x : Nat → K, (∃ r, r < n ∧ x r ≠ 0) → 0 < ∑ r ∈ range n, ∑ c ∈ range n, x r * a r c * x c)
    (hz : ∀ r c, r < i → r < c → c < i → g r c = 0)
    (h1 : ∀ r c, r < i → c ≤ r → ∑ k ∈ range (c + 1), g r k * g c k = a r c)
    (h2 : ∀ c, c < i → ∑ k ∈ range (c + 1), g i k * g c k = a i c)
    (h3 : ∀ r, r < i → g r r ≠ 0) :
    0 < a i i - ∑ k ∈ range i, g i k * g i k := by
  obtain ⟨y, hy⟩ : ∃ y : Nat → K, ∀ k, k < i → ∑ r ∈ range i, g r k * y r = g i k := by
    obtain ⟨T, hT⟩ := exists_repr (K := K) (Matrix.of fun (k r : Fin i) => g r k)
    obtain ⟨v, x, -, -, hx⟩ := C14_backward_vector (b := ⟨i, 1, List.ofFn fun k : Fin i => g i k⟩) hT rfl
      (by intro k r hrk; exact hz r k r.2 hrk k.2) (by intro k; exact h3 k k.2)
    refine ⟨extV x, fun k hk => ?_⟩
    have := congrFun hx ⟨k, hk⟩
    simp only [Matrix.mulVec, dotProduct, Matrix.of_apply] at this
    rw [← this, ← Fin.sum_univ_eq_sum_range (fun r => g r k * extV x r)]
    exact sum_congr rfl (fun r _ => by rw [extV_apply])
  set δ := a i i - ∑ k ∈ range i, g i k * g i k with hδ
  let z : Nat → K := fun r => if r < i then y r else if r = i then -1 else 0
  -- the entries of the leading block
  have key1 : ∀ r c, r ≤ i → c < i → c ≤ r → a r c = ∑ k ∈ range i, g r k * g c k := by
    intro r c hr hc hcr
    have hrel : ∑ k ∈ range (c + 1), g r k * g c k = a r c := by
      rcases Nat.lt_or_ge r i with h | h
      · exact h1 r c h hcr
      · have : r = i := by omega
        subst this; exact h2 c hc
    rw [← hrel]
    refine sum_subset (by intro k hk; simp at hk ⊢; omega) (fun k hk hk2 => ?_)
    simp at hk hk2
    rw [hz c k hc (by omega) hk, mul_zero]
  have key : ∀ r c, r ≤ i → c ≤ i → a r c = (∑ k ∈ range i, g r k * g c k) + if r = i ∧ c = i then δ else 0 := by
    intro r c hr hc
    by_cases e : r = i ∧ c = i
    · obtain ⟨rfl, rfl⟩ := e
      simp [hδ]
    · rw [if_neg e, add_zero]
      rcases Nat.le_total c r with h | h
      · exact key1 r c hr (by omega) h
      · rw [hsym r c (by omega) (by omega), key1 c r hc (by omega) h]
        exact sum_congr rfl (fun k _ => mul_comm _ _)
  have hpos := hpd z ⟨i, hi, by simp [z]⟩
  have hzz : ∀ r, i < r → z r = 0 := by
    intro r hr; simp only [z]; rw [if_neg (by omega), if_neg (by omega)]
  have shrink : ∀ h : Nat → K, (∀ r, i < r → h r = 0) → ∑ r ∈ range n, h r = ∑ r ∈ range (i + 1), h r := by
    intro h hh
    symm
    refine sum_subset (by intro k hk; simp at hk ⊢; omega) (fun k hk hk2 => ?_)
    simp at hk hk2
    exact hh k (by omega)
  have hlin : ∀ k, k < i → ∑ r ∈ range (i + 1), z r * g r k = 0 := by
    intro k hk
    rw [sum_range_succ]
    have : ∑ r ∈ range i, z r * g r k = g i k := by
      rw [← hy k hk]
      refine sum_congr rfl (fun r hr => ?_)
      simp at hr
      simp [z, hr, mul_comm]
    rw [this]; simp [z]
  have hval : ∑ r ∈ range n, ∑ c ∈ range n, z r * a r c * z c = δ := by
    rw [shrink _ (fun r hr => by simp [hzz r hr])]
    have e1 : ∀ r ∈ range (i + 1), ∑ c ∈ range n, z r * a r c * z c =
        ∑ k ∈ range i, (z r * g r k) * (∑ c ∈ range (i + 1), z c * g c k) + (if r = i then δ else 0) := by
      intro r hr
      simp at hr
      rw [shrink _ (fun c hc => by simp [hzz c hc])]
      have : ∀ c ∈ range (i + 1), z r * a r c * z c =
          (∑ k ∈ range i, (z r * g r k) * (z c * g c k)) + if c = i then (if r = i then δ else 0) else 0 := by
        intro c hc
        simp at hc
        rw [key r c (by omega) (by omega), mul_add, add_mul, mul_sum, sum_mul]
        congr 1
        · exact sum_congr rfl (fun k _ => by ring)
        · by_cases er : r = i <;> by_cases ec : c = i <;> simp [er, ec, z]
      rw [sum_congr rfl this, sum_add_distrib, sum_comm]
      congr 1
      · exact sum_congr rfl (fun k _ => by rw [mul_sum])
      · simp
    rw [sum_congr rfl e1, sum_add_distrib, sum_comm]
    have : ∑ k ∈ range i, ∑ r ∈ range (i + 1), (z r * g r k) * (∑ c ∈ range (i + 1), z c * g c k) = 0 :=
      sum_eq_zero (fun k hk => by
        rw [← sum_mul, hlin k (mem_range.mp hk), zero_mul])
    rw [this]
    simp
  rw [hval] at hpos
  exact hpos

theorem cholInv_zero (n : Nat) (a : Nat → Nat → K) : CholInv n a 0 0 (Mat.zero n n) :=
  ⟨_, Mat.zero_is n n, fun _ _ _ _ _ => rfl, by rintro r c _ ⟨_, h | h⟩ <;> omega⟩

theorem cholInv_next {n i : Nat} {a : Nat → Nat → K} {l : Mat K} (h : CholInv n a i (i + 1) l) :
    CholInv n a (i + 1) 0 l := by
  obtain ⟨g, hl, hz, hd⟩ := h
  refine ⟨g, hl, fun r c hr hc hn => hz r c hr hc ?_, fun r c hr hn => hd r c hr ?_⟩
  · rintro ⟨h1, h2⟩; exact hn ⟨h1, by omega⟩
  · obtain ⟨h1, h2⟩ := hn; exact ⟨h1, by omega⟩

/-- whatever is returned satisfies the invariant -/
theorem decChol_some (hs : IsSqrt sqrt) {n : Nat} {A l : Mat K} {a : Nat → Nat → K} (hA : A.Is n n a)
    (h : A.decChol sqrt = some l) : CholInv n a n 0 l := by
  unfold Mat.decChol at h
  rw [hA.hm, hA.hn, if_pos rfl] at h
  have := forRange_inv_of_some (fun i l => CholInv n a i 0 l) (cholInv_zero n a) (by
    intro i u u' _ hi hu hf
    have := forRange_inv_of_some (fun j l => CholInv n a i j l) hu (by
      intro j w w' _ hj hw hg
      obtain ⟨g, hl, hz, hd⟩ := hw
      obtain ⟨e1, e2⟩ := cholEntry_step hs hA hi (by omega : j ≤ i) hl hz hd
      by_cases e : i = j
      · subst e
        simp only [if_true] at e1 e2
        rw [e1] at hg
        by_cases hok : ¬ (a i i - ∑ k ∈ range i, g i k * g i k < 0)
        · rw [if_pos hok] at hg
          obtain ⟨f1, f2, f3⟩ := e2 hok
          rw [← Option.some.inj hg]
          exact ⟨_, f1, f2, f3⟩
        · rw [if_neg hok] at hg; exact absurd hg (by simp)
      · simp only [if_neg e] at e1 e2
        rw [e1] at hg
        by_cases hok : g j j ≠ 0
        · rw [if_pos hok] at hg
          obtain ⟨f1, f2, f3⟩ := e2 hok
          rw [← Option.some.inj hg]
          exact ⟨_, f1, f2, f3⟩
        · rw [if_neg hok] at hg; exact absurd hg (by simp)) hf
    rw [Nat.max_eq_right (by omega)] at this
    exact cholInv_next this) h
  rwa [Nat.max_eq_right (by omega)] at this

/-- positive definite input: a factor with positive diagonal is returned -/
theorem decChol_pd (hs : IsSqrt sqrt) {n : Nat} {A : Mat K} {a : Nat → Nat → K} (hA : A.Is n n a)
    (hsym : ∀ r c, r < n → c < n → a r c = a c r)
    (hpd : ∀ x : Nat → K, (∃ r, r < n ∧ x r ≠ 0) → 0 < ∑ r ∈ range n, ∑ c ∈ range n, x r * a r c * x c) :
    ∃ l, A.decChol sqrt = some l ∧ CholInv n a n 0 l ∧ ∀ i, i < n → ∃ v, l.get i i = some v ∧ 0 < v := by
  have houter := forRange_inv (a := 0) (b := n) (s := (Mat.zero n n : Mat K))
    (f := fun l i => forRange 0 (i + 1) (fun l j => Mat.cholEntry sqrt A i l j) l)
    (fun i l => CholInv n a i 0 l ∧ ∀ r, r < i → ∃ v, l.get r r = some v ∧ 0 < v) (Nat.zero_le _)
    ⟨cholInv_zero n a, by intro r hr; omega⟩ (by
      intro i l _ hi hl
      have hinner := forRange_inv (a := 0) (b := i + 1) (s := l)
        (f := fun l j => Mat.cholEntry sqrt A i l j)
        (fun j l => CholInv n a i j l ∧ ∀ r, (r < i ∨ (r = i ∧ i < j)) → ∃ v, l.get r r = some v ∧ 0 < v)
        (Nat.zero_le _) ⟨hl.1, by
          intro r hr
          exact hl.2 r (by omega)⟩ (by
          intro j w _ hj ⟨hw, hpos⟩
          obtain ⟨g, hl, hz, hd⟩ := hw
          have hgp : ∀ r, r < i → 0 < g r r := by
            intro r hr
            obtain ⟨v, h1, h2⟩ := hpos r (Or.inl hr)
            rw [hl.get (by omega) (by omega)] at h1
            cases h1; exact h2
          obtain ⟨e1, e2⟩ := cholEntry_step hs hA hi (by omega : j ≤ i) hl hz hd
          by_cases e : i = j
          · subst e
            have hp := chol_pivot_pos hi hsym hpd (g := g)
              (fun r c hr hrc hc => hz r c (by omega) (by omega) (by rintro ⟨h, _⟩; omega))
              (fun r c hr hc => (hd r c (by omega) ⟨hc, Or.inl hr⟩).1)
              (fun c hc => (hd i c hi ⟨by omega, Or.inr ⟨rfl, hc⟩⟩).1)
              (fun r hr => (hgp r hr).ne')
            simp only [if_true] at e1 e2
            rw [if_pos (not_lt.mpr hp.le)] at e1
            obtain ⟨f1, f2, f3⟩ := e2 (not_lt.mpr hp.le)
            refine ⟨_, e1, ⟨_, f1, f2, f3⟩, ?_⟩
            intro r hr
            refine ⟨_, f1.get (by omega) (by omega), ?_⟩
            by_cases er : r = i
            · subst er
              rw [upd_same]
              obtain ⟨s1, s2⟩ := hs _ hp.le
              exact lt_of_le_of_ne s1 (fun h => by rw [← h, zero_mul] at s2; exact hp.ne s2)
            · rw [upd_ne _ _ (by omega)]
              exact hgp r (by omega)
          · simp only [if_neg e] at e1 e2
            rw [if_pos (hgp j (by omega)).ne'] at e1
            obtain ⟨f1, f2, f3⟩ := e2 (hgp j (by omega)).ne'
            refine ⟨_, e1, ⟨_, f1, f2, f3⟩, ?_⟩
            intro r hr
            refine ⟨_, f1.get (by omega) (by omega), ?_⟩
            rw [upd_ne _ _ (by omega)]
            exact hgp r (by omega))
      obtain ⟨l', h1, h2, h3⟩ := hinner
      exact ⟨l', h1, cholInv_next h2, fun r hr => h3 r (by omega)⟩)
  obtain ⟨l, h1, h2, h3⟩ := houter
  refine ⟨l, ?_, h2, h3⟩
  unfold Mat.decChol
  rw [hA.hm, hA.hn, if_pos rfl]
  exact h1

/-- the invariant at the end, as a statement about matrices -/
theorem cholInv_final {n : Nat} {M : Matrix (Fin n) (Fin n) K} {l : Mat K} (h : CholInv n (extM M) n 0 l) :
    ∃ L : Matrix (Fin n) (Fin n) K, Repr l L ∧ (∀ i j, i < j → L i j = 0) ∧ (∀ i, 0 ≤ L i i) ∧
      (∀ i : Fin n, (i : Nat) + 1 < n → 0 < L i i) ∧ ∀ i j, j ≤ i → (L * L.transpose) i j = M i j := by
  obtain ⟨g, hl, hz, hd⟩ := h
  have hdiag : ∀ i : Fin n, 0 ≤ g i i := fun i => (hd i i i.2 ⟨le_rfl, Or.inl i.2⟩).2.1 rfl
  refine ⟨mx n n g, hl.repr, ?_, hdiag, ?_, ?_⟩
  · intro i j hij
    exact hz i j i.2 j.2 (by rintro ⟨h, _⟩; omega)
  · intro i hi
    have := (hd (i + 1) i hi ⟨by omega, Or.inl hi⟩).2.2 (by omega)
    exact lt_of_le_of_ne (hdiag i) (Ne.symm this)
  · intro i j hji
    have := (hd i j i.2 ⟨hji, Or.inl i.2⟩).1
    rw [extM_apply] at this
    rw [← this, Matrix.mul_apply]
    simp only [Matrix.transpose_apply]
    rw [show (∑ k : Fin n, mx n n g i k * mx n n g j k) = ∑ k ∈ range n, g i k * g j k from
      Fin.sum_univ_eq_sum_range (fun k => g i k * g j k) n]
    symm
    refine sum_subset (by intro k hk; simp at hk ⊢; have := j.2; omega) (fun k hk hk2 => ?_)
    simp at hk hk2
    rw [hz j k j.2 hk (by rintro ⟨h, _⟩; omega), mul_zero]

end

/-! ### C16 -/

/-- On a symmetric positive definite matrix a lower triangular factor with positive diagonal and `L Lᵀ = A` is
    returned. -/
theorem C16_cholesky_pd {n : Nat} {A : Mat ℝ} {M : Matrix (Fin n) (Fin n) ℝ} (hA : Repr A M)
    (hsym : M.transpose = M) (hpd : ∀ x : Fin n → ℝ, x ≠ 0 → 0 < x ⬝ᵥ (M.mulVec x)) :
    ∃ (l : Mat ℝ) (L : Matrix (Fin n) (Fin n) ℝ), A.decChol Real.sqrt = some l ∧ Repr l L ∧
      (∀ i j, i < j → L i j = 0) ∧ (∀ i, 0 < L i i) ∧ L * L.transpose = M := by
  have hsymA : ∀ i j, M i j = M j i := fun i j => congrFun (congrFun hsym.symm i) j
  obtain ⟨l, h1, h2, h3⟩ := decChol_pd isSqrt_real hA.is
    (fun r c hr hc => by rw [extM_lt M hr hc, extM_lt M hc hr, hsymA]) (by
      intro x ⟨r, hr, hxr⟩
      have := hpd (fun i => x i) (fun h => hxr (congrFun h ⟨r, hr⟩))
      rw [← Fin.sum_univ_eq_sum_range (fun r => ∑ c ∈ range n, x r * extM M r c * x c)]
      simp only [dotProduct, Matrix.mulVec] at this
      refine lt_of_lt_of_eq this (sum_congr rfl (fun i _ => ?_))
      rw [← Fin.sum_univ_eq_sum_range (fun c => x i * extM M i c * x c), mul_sum]
      exact sum_congr rfl (fun j _ => by rw [extM_apply]; ring))
  obtain ⟨L, g1, g2, g3, g4, g5⟩ := cholInv_final h2
  refine ⟨l, L, h1, g1, g2, ?_, ?_⟩
  · intro i
    obtain ⟨v, hv, hv0⟩ := h3 i i.2
    rw [g1.entry i i] at hv
    cases hv; exact hv0
  · ext i j
    rcases le_total j i with h | h
    · exact g5 i j h
    · rw [hsymA, ← g5 j i h, ← Matrix.transpose_apply (L * L.transpose), Matrix.transpose_mul,
        Matrix.transpose_transpose]

example : Mat.decChol (K := ℚ) Rat.sqrt ⟨3, 3, [4, 12, -16, 12, 37, -43, -16, -43, 98]⟩ =
    some ⟨3, 3, [2, 6, -8, 0, 1, 5, 0, 0, 3]⟩ := by decide +kernel

/-- Whatever is returned for a symmetric matrix is a factor: so the matrix is positive semidefinite, and only the
    last diagonal entry can be zero. Missing from C16: that no factor is returned when the last one is zero
    (`C16_cholesky_violated`). -/
theorem C16_cholesky_partial {n : Nat} {A l : Mat ℝ} {M : Matrix (Fin n) (Fin n) ℝ} (hA : Repr A M)
    (hsym : M.transpose = M) (h : A.decChol Real.sqrt = some l) :
    ∃ L : Matrix (Fin n) (Fin n) ℝ, Repr l L ∧ (∀ i j, i < j → L i j = 0) ∧ (∀ i, 0 ≤ L i i) ∧
      (∀ i : Fin n, (i : Nat) + 1 < n → 0 < L i i) ∧ L * L.transpose = M ∧
      ∀ x : Fin n → ℝ, 0 ≤ x ⬝ᵥ (M.mulVec x) := by
  obtain ⟨L, g1, g2, g3, g4, g5⟩ := cholInv_final (decChol_some isSqrt_real hA.is h)
  have hM : L * L.transpose = M := by
    ext i j
    rcases le_total j i with h | h
    · exact g5 i j h
    · rw [← hsym, Matrix.transpose_apply, ← g5 j i h, ← Matrix.transpose_apply (L * L.transpose),
        Matrix.transpose_mul, Matrix.transpose_transpose]
  refine ⟨L, g1, g2, g3, g4, hM, ?_⟩
  intro x
  rw [← hM, ← Matrix.mulVec_mulVec, Matrix.dotProduct_mulVec, Matrix.mulVec_transpose]
  exact sum_nonneg (fun i _ => mul_self_nonneg _)

/-- only the lower triangle of the input is read -/
theorem C16_cholesky_lower {n : Nat} {A l : Mat ℝ} {M : Matrix (Fin n) (Fin n) ℝ} (hA : Repr A M)
    (h : A.decChol Real.sqrt = some l) :
    ∃ L : Matrix (Fin n) (Fin n) ℝ, Repr l L ∧ (∀ i j, i < j → L i j = 0) ∧
      ∀ i j, j ≤ i → (L * L.transpose) i j = M i j := by
  obtain ⟨L, g1, g2, _, _, g5⟩ := cholInv_final (decChol_some isSqrt_real hA.is h)
  exact ⟨L, g1, g2, g5⟩

/-- no factor for a symmetric matrix that is not positive semidefinite -/
theorem C16_cholesky_indefinite {n : Nat} {A : Mat ℝ} {M : Matrix (Fin n) (Fin n) ℝ} (hA : Repr A M)
    (hsym : M.transpose = M) {x : Fin n → ℝ} (hx : x ⬝ᵥ (M.mulVec x) < 0) : A.decChol Real.sqrt = none := by
  cases h : A.decChol Real.sqrt with
  | none => rfl
  | some l =>
    obtain ⟨_, _, _, _, _, _, h6⟩ := C16_cholesky_partial hA hsym h
    exact absurd hx (not_lt.mpr (h6 x))

example : Mat.decChol (K := ℚ) Rat.sqrt ⟨2, 2, [1, 2, 2, 1]⟩ = none := by decide +kernel

/-- the matrix `[[1, 1], [1, 1]]` is not positive definite, yet a factor is returned -/
theorem C16_cholesky_violated : ∃ A l : Mat ℝ, A = ⟨2, 2, [1, 1, 1, 1]⟩ ∧ A.decChol Real.sqrt = some l ∧
    ∃ x : Fin 2 → ℝ, x ≠ 0 ∧ x ⬝ᵥ ((!![1, 1; 1, 1] : Matrix (Fin 2) (Fin 2) ℝ).mulVec x) = 0 := by
  refine ⟨_, ⟨2, 2, [1, 1, 0, 0]⟩, rfl, ?_, ![1, -1], ?_, ?_⟩
  · simp [Mat.decChol, forRange, List.range', Mat.cholEntry, Mat.zero, Mat.get, Mat.set, Mat.put,
      (by norm_num : ¬ (1 : ℝ) < 0)]
  · intro h; have := congrFun h 0; simp at this
  · simp [Matrix.mulVec, dotProduct, Fin.sum_univ_two]

end Verif
