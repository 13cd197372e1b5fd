import Verif.CholProps
import Verif.FloatSolve
import Mathlib.Algebra.Order.Chebyshev

/-!
# C102: the Cholesky decomposition with rounding

`/repo/src/algebra/linear/matrix/cholesky/native.rs`, the model `decChol` run on the numbers `Fl R` with rounded operations
and a rounded square root.
-/

set_option linter.unusedSectionVars false

namespace Verif
open Finset

section
variable {K : Type} [Field K] [LinearOrder K] [IsStrictOrderedRing K] {R : Rounding K}

/-- a correctly rounded square root -/
def FlSqrt (sqrt : Fl R → Fl R) : Prop :=
  ∀ x : Fl R, 0 ≤ x.val → ∃ r, 0 ≤ r ∧ r * r = x.val ∧ (sqrt x).val = R.rnd r

/-- an entry below the diagonal: what is solved for, up to two roundings -/
theorem chol_off {a s d v : Fl R} (hd : d.val ≠ 0) (hv : v = (a - s) / d) :
    |a.val - s.val - v.val * d.val| ≤ R.gam 2 * |v.val * d.val| := by
  subst hv
  rw [Fl.div_val, Fl.sub_val]
  set w := R.rnd (a.val - s.val) with hw
  set q := R.rnd (w / d.val) with hq
  have h1 : |w - (a.val - s.val)| ≤ R.u * |w| := R.err' _
  have h2 : |q - w / d.val| ≤ R.u * |q| := R.err' _
  have h3 : |q * d.val - w| ≤ R.u * |q * d.val| := by
    have : q * d.val - w = (q - w / d.val) * d.val := by field_simp
    rw [this, abs_mul, abs_mul, ← mul_assoc]
    exact mul_le_mul_of_nonneg_right h2 (abs_nonneg _)
  have h4 : |w| ≤ |q * d.val| + R.u * |q * d.val| := by
    have := abs_sub_abs_le_abs_sub w (q * d.val)
    rw [abs_sub_comm] at this
    linarith
  have h5 := mul_le_mul_of_nonneg_left h4 R.u_nonneg
  have h6 : a.val - s.val - q * d.val = -((w - (a.val - s.val)) + (q * d.val - w)) := by ring
  rw [h6, abs_neg]
  have h7 := abs_add_le (w - (a.val - s.val)) (q * d.val - w)
  rw [Rounding.gam]
  linarith

/-- an entry on the diagonal: three roundings -/
theorem chol_diag {sqrt : Fl R → Fl R} (hs : FlSqrt sqrt) {a s v : Fl R} (h0 : ¬ a - s < 0) (hv : v = sqrt (a - s)) :
    |a.val - s.val - v.val * v.val| ≤ R.gam 3 * |v.val * v.val| := by
  subst hv
  have h0' : 0 ≤ (a - s).val := not_lt.1 h0
  obtain ⟨r, hr0, hr, hrv⟩ := hs _ h0'
  rw [hrv]
  rw [Fl.sub_val] at hr
  set w := R.rnd (a.val - s.val) with hw
  set q := R.rnd r with hq
  have h1 : |w - (a.val - s.val)| ≤ R.u * |w| := R.err' _
  have h2 : |q - r| ≤ R.u * |q| := R.err' _
  have h3 : r ≤ (1 + R.u) * |q| := by
    have := abs_sub_abs_le_abs_sub r q
    rw [abs_sub_comm, abs_of_nonneg hr0] at this
    linarith
  have h4 : |w| ≤ (1 + R.u) ^ 2 * |q * q| := by
    rw [← hr, abs_mul_self, abs_mul, ← sq, ← sq, ← mul_pow]
    exact pow_le_pow_left₀ hr0 h3 2
  have h5 : |q * q - w| ≤ (R.u * (2 + R.u)) * |q * q| := by
    have e : q * q - w = (q - r) * (q + r) := by rw [← hr]; ring
    have h6 : |q + r| ≤ (2 + R.u) * |q| := by
      refine (abs_add_le _ _).trans ?_
      rw [abs_of_nonneg hr0]
      linarith
    rw [e, abs_mul, abs_mul q q]
    refine (mul_le_mul h2 h6 (abs_nonneg _) (mul_nonneg R.u_nonneg (abs_nonneg _))).trans (le_of_eq ?_)
    ring
  have h7 := mul_le_mul_of_nonneg_left h4 R.u_nonneg
  have h6 : a.val - s.val - q * q = -((w - (a.val - s.val)) + (q * q - w)) := by ring
  rw [h6, abs_neg]
  have h8 := abs_add_le (w - (a.val - s.val)) (q * q - w)
  rw [Rounding.gam]
  linarith

/-- invariant of the factorisation with rounding, before entry `(i, j)` -/
def CholInvFl (n : Nat) (a : Nat → Nat → Fl R) (i j : Nat) (l : Mat (Fl R)) : Prop :=
  ∃ g : Nat → Nat → Fl R, l.Is n n g ∧ (∀ r c, r < n → c < n → ¬ cholDone i j r c → g r c = 0) ∧
    ∀ r c, r < n → cholDone i j r c →
      (|(a r c).val - ∑ k ∈ range (c + 1), (g r k).val * (g c k).val| ≤
        R.gam (n + 2) * ∑ k ∈ range (c + 1), |(g r k).val * (g c k).val|) ∧ (c < r → g c c ≠ 0)

theorem cholEntry_fl {sqrt : Fl R → Fl R} (hs : FlSqrt sqrt) {n i j : Nat} {A l : Mat (Fl R)} {a g : Nat → Nat → Fl R}
    (hA : A.Is n n a) (hi : i < n) (hj : j ≤ i) (hl : l.Is n n g)
    (hz : ∀ r c, r < n → c < n → ¬ cholDone i j r c → g r c = 0)
    (hd : ∀ r c, r < n → cholDone i j r c →
      (|(a r c).val - ∑ k ∈ range (c + 1), (g r k).val * (g c k).val| ≤
        R.gam (n + 2) * ∑ k ∈ range (c + 1), |(g r k).val * (g c k).val|) ∧ (c < r → g c c ≠ 0)) :
    let sum := Mat.accum (fun k => g i k * g j k) j
    let ok := if i = j then ¬ (a i i - sum < 0) else g j j ≠ 0
    let v := if i = j then sqrt (a i i - sum) else (a i j - sum) / g j j
    Mat.cholEntry sqrt A i l j = (if ok then some (l.put i j v) else none) ∧
      (ok → (l.put i j v).Is n n (upd g i j v) ∧
        (∀ r c, r < n → c < n → ¬ cholDone i (j + 1) r c → upd g i j v r c = 0) ∧
        ∀ r c, r < n → cholDone i (j + 1) r c →
          (|(a r c).val - ∑ k ∈ range (c + 1), (upd g i j v r k).val * (upd g i j v c k).val| ≤
            R.gam (n + 2) * ∑ k ∈ range (c + 1), |(upd g i j v r k).val * (upd g i j v c k).val|) ∧
          (c < r → upd g i j v c c ≠ 0)) := by
  intro sum ok v
  have hsum : forRange 0 j (fun sum k => do
      let x ← l.get i k
      let y ← l.get j k
      some (sum + x * y)) (0 : Fl R) = some sum := by
    refine Mat.accumLoop _ _ ?_
    intro s k hk
    simp [hl.get (i := i) (j := k) hi (by omega), hl.get (i := j) (j := k) (by omega) (by omega)]
  refine ⟨?_, ?_⟩
  · unfold Mat.cholEntry
    simp only [Option.bind_eq_bind] at hsum ⊢
    rw [hsum]
    simp only [Option.bind_some]
    by_cases e : i = j
    · subst e
      simp only [if_true, hA.get hi hi, Option.bind_some, ok, v]
      by_cases c : a i i - sum < 0
      · simp [c]
      · simp [c, hl.set hi hi]
    · simp only [if_neg e, hA.get (i := i) (j := j) hi (by omega), hl.get (i := j) (j := j) (by omega) (by omega),
        Option.bind_some, ok, v]
      by_cases c : g j j = 0
      · simp [c]
      · simp [c, hl.set (i := i) (j := j) hi (by omega)]
  · intro hok
    refine ⟨hl.put hi (by omega) v, ?_, ?_⟩
    · intro r c hr hc hnd
      have hne : ¬ (r = i ∧ c = j) := by
        rintro ⟨rfl, rfl⟩; apply hnd; exact ⟨hj, Or.inr ⟨rfl, by omega⟩⟩
      rw [upd_ne _ _ hne]
      apply hz r c hr hc
      rintro ⟨h1, h2⟩
      exact hnd ⟨h1, by omega⟩
    · intro r c hr hcd
      obtain ⟨h1, h2⟩ := hcd
      by_cases e : r = i ∧ c = j
      · obtain ⟨rfl, rfl⟩ := e
        have hpre : ∑ k ∈ range c, (upd g r c v r k).val * (upd g r c v c k).val =
            ∑ k ∈ range c, (g r k).val * (g c k).val := by
          refine sum_congr rfl (fun k hk => ?_)
          have hk' := mem_range.mp hk
          rw [upd_ne _ _ (by omega), upd_ne _ _ (by omega)]
        have hpre' : ∑ k ∈ range c, |(upd g r c v r k).val * (upd g r c v c k).val| =
            ∑ k ∈ range c, |(g r k).val * (g c k).val| := by
          refine sum_congr rfl (fun k hk => ?_)
          have hk' := mem_range.mp hk
          rw [upd_ne _ _ (by omega), upd_ne _ _ (by omega)]
        have hacc := R.accum_err (g r) (g c) c
        have hg1 : R.gam c ≤ R.gam (n + 2) := R.gam_mono (by omega)
        have hS : 0 ≤ ∑ k ∈ range c, |(g r k).val * (g c k).val| := sum_nonneg fun _ _ => abs_nonneg _
        have hgS := mul_le_mul_of_nonneg_right hg1 hS
        rw [sum_range_succ, sum_range_succ, hpre, hpre', upd_same]
        -- one bound for the two kinds of entries
        have fin : ∀ d : Fl R, |(a r c).val - sum.val - v.val * d.val| ≤ R.gam (n + 2) * |v.val * d.val| →
            |(a r c).val - (∑ k ∈ range c, (g r k).val * (g c k).val + v.val * d.val)| ≤
              R.gam (n + 2) * (∑ k ∈ range c, |(g r k).val * (g c k).val| + |v.val * d.val|) := by
          intro d h
          have e : (a r c).val - (∑ k ∈ range c, (g r k).val * (g c k).val + v.val * d.val) =
              ((a r c).val - sum.val - v.val * d.val) + (sum.val - ∑ k ∈ range c, (g r k).val * (g c k).val) := by ring
          rw [e, mul_add]
          refine (abs_add_le _ _).trans ?_
          linarith
        by_cases e2 : r = c
        · subst e2
          simp only [if_true, ok] at hok
          have hv : v = sqrt (a r r - sum) := by simp only [v, if_true]
          rw [upd_same]
          refine ⟨fin v ((chol_diag hs hok hv).trans
            (mul_le_mul_of_nonneg_right (R.gam_mono (by omega)) (abs_nonneg _))), fun h => absurd h (lt_irrefl _)⟩
        · simp only [if_neg e2, ok] at hok
          have hv : v = (a r c - sum) / g c c := by simp only [v, if_neg e2]
          rw [upd_ne _ _ (by omega)]
          exact ⟨fin _ ((chol_off (fun h => hok ((Fl.eq_zero_iff _).2 h)) hv).trans
            (mul_le_mul_of_nonneg_right (R.gam_mono (by omega)) (abs_nonneg _))), fun _ => hok⟩
      · have hdone : cholDone i j r c := ⟨h1, by omega⟩
        obtain ⟨d1, d3⟩ := hd r c hr hdone
        have hsame : ∀ k, k ≤ c → upd g i j v r k = g r k ∧ upd g i j v c k = g c k := by
          intro k hk
          exact ⟨upd_ne _ _ (by omega), upd_ne _ _ (by omega)⟩
        refine ⟨?_, ?_⟩
        · have e1 : ∑ k ∈ range (c + 1), (upd g i j v r k).val * (upd g i j v c k).val =
              ∑ k ∈ range (c + 1), (g r k).val * (g c k).val := sum_congr rfl (fun k hk => by
            have hk' := mem_range.mp hk
            rw [(hsame k (by omega)).1, (hsame k (by omega)).2])
          have e2 : ∑ k ∈ range (c + 1), |(upd g i j v r k).val * (upd g i j v c k).val| =
              ∑ k ∈ range (c + 1), |(g r k).val * (g c k).val| := sum_congr rfl (fun k hk => by
            have hk' := mem_range.mp hk
            rw [(hsame k (by omega)).1, (hsame k (by omega)).2])
          rw [e1, e2]
          exact d1
        · rw [(hsame c le_rfl).2]; exact d3

theorem cholInvFl_zero (n : Nat) (a : Nat → Nat → Fl R) : CholInvFl n a 0 0 (Mat.zero n n) :=
  ⟨_, Mat.zero_is n n, fun _ _ _ _ _ => rfl, by rintro r c _ ⟨_, h | h⟩ <;> omega⟩

theorem cholInvFl_next {n i : Nat} {a : Nat → Nat → Fl R} {l : Mat (Fl R)} (h : CholInvFl n a i (i + 1) l) :
    CholInvFl n a (i + 1) 0 l := by
  obtain ⟨g, hl, hz, hd⟩ := h
  refine ⟨g, hl, fun r c hr hc hn => hz r c hr hc ?_, fun r c hr hn => hd r c hr ?_⟩
  · rintro ⟨h1, h2⟩; exact hn ⟨h1, by omega⟩
  · obtain ⟨h1, h2⟩ := hn; exact ⟨h1, by omega⟩

/-- whatever is returned satisfies the invariant -/
theorem decChol_some_fl {sqrt : Fl R → Fl R} (hs : FlSqrt sqrt) {n : Nat} {A l : Mat (Fl R)} {a : Nat → Nat → Fl R}
    (hA : A.Is n n a) (h : A.decChol sqrt = some l) : CholInvFl n a n 0 l := by
  unfold Mat.decChol at h
  rw [hA.hm, hA.hn, if_pos rfl] at h
  have := forRange_inv_of_some (fun i l => CholInvFl n a i 0 l) (cholInvFl_zero n a) (by
    intro i u u' _ hi hu hf
    have := forRange_inv_of_some (fun j l => CholInvFl n a i j l) hu (by
      intro j w w' _ hj hw hg
      obtain ⟨g, hl, hz, hd⟩ := hw
      obtain ⟨e1, e2⟩ := cholEntry_fl hs hA hi (by omega : j ≤ i) hl hz hd
      rw [e1] at hg
      by_cases hok : (if i = j then ¬ (a i i - Mat.accum (fun k => g i k * g j k) j < 0) else g j j ≠ 0)
      · rw [if_pos hok] at hg
        obtain ⟨f1, f2, f3⟩ := e2 hok
        rw [← Option.some.inj hg]
        exact ⟨_, f1, f2, f3⟩
      · rw [if_neg hok] at hg; exact absurd hg (by simp)) hf
    rw [Nat.max_eq_right (by omega)] at this
    exact cholInvFl_next this) h
  rwa [Nat.max_eq_right (by omega)] at this


theorem chol_arith1 {γ G a : K} (hγ2 : γ ≤ 1 / 2) (hG : 0 ≤ G) (h : |a - G| ≤ γ * G) : G ≤ 2 * a := by
  have h := (abs_le.1 h).1
  have := mul_le_mul_of_nonneg_right hγ2 hG
  linarith

theorem chol_arith2 {γ lam n δ G a P Q EE i : K} (hγ : 0 ≤ γ) (hlam : 0 < lam) (hlam1 : lam ≤ 1) (hn0 : 1 ≤ n)
    (hi0 : 0 ≤ i) (hn1 : i + 1 ≤ n) (hγl : 2 * (n + 1) * γ ≤ lam) (ha : 0 < a) (hG0 : 0 ≤ G) (hP0 : 0 ≤ P) (hQ0 : 0 ≤ Q)
    (hPG : Q ≤ 2 * P) (hδ : δ = a - G) (hform : lam * (P + a * (-1) ^ 2) ≤ δ + EE)
    (hE : EE ≤ γ * ((i + 1) * (Q + (-1) ^ 2 * G))) : (1 + γ) * G < a := by
  have c0 : (i + 1) * (Q + (-1) ^ 2 * G) ≤ n * (2 * P + G) := by
    refine mul_le_mul hn1 (by linarith) ?_ (by linarith)
    have : (0 : K) ≤ (-1) ^ 2 * G := by linarith
    linarith
  have c1 := mul_le_mul_of_nonneg_left c0 hγ
  have c3 : 2 * n * γ * P ≤ lam * P := mul_le_mul_of_nonneg_right (by linarith) hP0
  have c4 : lam * a ≤ δ + γ * n * G := by linarith
  have hγn : 0 ≤ 1 - γ * n := by linarith
  by_contra hcon
  push Not at hcon
  have hγ1 : 0 ≤ 1 - γ := by
    have := mul_nonneg hγ (by linarith : 0 ≤ n - 1)
    linarith
  have hG1 : (1 - γ) * a ≤ G := by
    have h := mul_le_mul_of_nonneg_left hcon hγ1
    have := mul_nonneg (mul_nonneg hγ hγ) hG0
    linarith
  have h5 := mul_le_mul_of_nonneg_right hG1 hγn
  have h6 : 0 ≤ γ * (γ * n) * a := by
    have := mul_nonneg hγ (by linarith : (0 : K) ≤ n)
    positivity
  have h7 := mul_le_mul_of_nonneg_right hγl ha.le
  have h8 := mul_pos hlam ha
  linarith

/-- A factorisation with errors meets positive pivots if the quadratic form is large compared with the errors. -/
theorem chol_pivot_fl {n i : Nat} {a g : Nat → Nat → K} {γ lam : K} (hi : i < n)
    (hsym : ∀ r c, r < n → c < n → a r c = a c r) (hpos : ∀ r, r < n → 0 < a r r)
    (hpd : ∀ x : Nat → K, lam * ∑ r ∈ range n, a r r * x r ^ 2 ≤ ∑ r ∈ range n, ∑ c ∈ range n, x r * a r c * x c)
    (hγ : 0 ≤ γ) (hlam : 0 < lam) (hγl : 2 * (n + 1) * γ ≤ lam)
    (hz : ∀ r c, r < i → r < c → c < i → g r c = 0)
    (h1 : ∀ r c, r < i → c ≤ r → |a r c - ∑ k ∈ range (c + 1), g r k * g c k| ≤
      γ * ∑ k ∈ range (c + 1), |g r k * g c k|)
    (h2 : ∀ c, c < i → |a i c - ∑ k ∈ range (c + 1), g i k * g c k| ≤ γ * ∑ k ∈ range (c + 1), |g i k * g c k|)
    (h3 : ∀ r, r < i → g r r ≠ 0) :
    (1 + γ) * ∑ k ∈ range i, |g i k * g i k| < a i i := by
  obtain ⟨y, hy⟩ : ∃ y : Nat → K, ∀ k, k < i → ∑ r ∈ range i, g r k * y r = g i k := by
    obtain ⟨T, hT⟩ := exists_repr (K := K) (Matrix.of fun (k r : Fin i) => g r k)
    obtain ⟨v, x, -, -, hx⟩ := C14_backward_vector (b := ⟨i, 1, List.ofFn fun k : Fin i => g i k⟩) hT rfl
      (by intro k r hrk; exact hz r k r.2 hrk k.2) (by intro k; exact h3 k k.2)
    refine ⟨extV x, fun k hk => ?_⟩
    have := congrFun hx ⟨k, hk⟩
    simp only [Matrix.mulVec, dotProduct, Matrix.of_apply] at this
    rw [← this, ← Fin.sum_univ_eq_sum_range (fun r => g r k * extV x r)]
    exact sum_congr rfl (fun r _ => by rw [extV_apply])
  set δ := a i i - ∑ k ∈ range i, g i k * g i k with hδ
  let z : Nat → K := fun r => if r < i then y r else if r = i then -1 else 0
  -- the deviations of the leading block
  let E : Nat → Nat → K := fun r c => a r c - ∑ k ∈ range i, g r k * g c k - if r = i ∧ c = i then δ else 0
  have ext : ∀ r c, c < i → ∀ φ : K → K, φ 0 = 0 →
      ∑ k ∈ range (c + 1), φ (g r k * g c k) = ∑ k ∈ range i, φ (g r k * g c k) := by
    intro r c hc φ hφ
    refine sum_subset (by intro k hk; simp at hk ⊢; omega) (fun k hk hk2 => ?_)
    simp at hk hk2
    rw [hz c k hc (by omega) hk, mul_zero, hφ]
  have key1 : ∀ r c, r ≤ i → c < i → c ≤ r → |a r c - ∑ k ∈ range i, g r k * g c k| ≤
      γ * ∑ k ∈ range i, |g r k * g c k| := by
    intro r c hr hc hcr
    have e1 := ext r c hc id rfl
    have e2 := ext r c hc (fun x => |x|) abs_zero
    simp only [id] at e1
    rw [← e1, ← e2]
    rcases Nat.lt_or_ge r i with h | h
    · exact h1 r c h hcr
    · have : r = i := by omega
      subst this; exact h2 c hc
  have hE : ∀ r c, r ≤ i → c ≤ i → |E r c| ≤ γ * ∑ k ∈ range i, |g r k * g c k| := by
    intro r c hr hc
    by_cases e : r = i ∧ c = i
    · obtain ⟨rfl, rfl⟩ := e
      simp only [E, and_self, if_true, hδ, sub_self, abs_zero]
      exact mul_nonneg hγ (sum_nonneg fun _ _ => abs_nonneg _)
    · simp only [E, if_neg e, sub_zero]
      rcases Nat.le_total c r with h | h
      · exact key1 r c hr (by omega) h
      · rw [hsym r c (by omega) (by omega)]
        have := key1 c r hc (by omega) h
        simpa only [mul_comm (g c _)] using this
  have hzz : ∀ r, i < r → z r = 0 := by
    intro r hr; simp only [z]; rw [if_neg (by omega), if_neg (by omega)]
  have hzi : z i = -1 := by simp [z]
  have shrink : ∀ h : Nat → K, (∀ r, i < r → h r = 0) → ∑ r ∈ range n, h r = ∑ r ∈ range (i + 1), h r := by
    intro h hh
    symm
    refine sum_subset (by intro k hk; simp at hk ⊢; omega) (fun k hk hk2 => ?_)
    simp at hk hk2
    exact hh k (by omega)
  have hlin : ∀ k, k < i → ∑ r ∈ range (i + 1), z r * g r k = 0 := by
    intro k hk
    rw [sum_range_succ]
    have : ∑ r ∈ range i, z r * g r k = g i k := by
      rw [← hy k hk]
      refine sum_congr rfl (fun r hr => ?_)
      simp at hr
      simp [z, hr, mul_comm]
    rw [this, hzi]; ring
  set EE := ∑ r ∈ range (i + 1), ∑ c ∈ range (i + 1), z r * E r c * z c with hEE
  have hval : ∑ r ∈ range n, ∑ c ∈ range n, z r * a r c * z c = δ + EE := by
    rw [shrink _ (fun r hr => by simp [hzz r hr])]
    have e1 : ∀ r ∈ range (i + 1), ∑ c ∈ range n, z r * a r c * z c =
        ∑ k ∈ range i, (z r * g r k) * (∑ c ∈ range (i + 1), z c * g c k) + (if r = i then δ else 0) +
          ∑ c ∈ range (i + 1), z r * E r c * z c := by
      intro r hr
      simp at hr
      rw [shrink _ (fun c hc => by simp [hzz c hc])]
      have : ∀ c ∈ range (i + 1), z r * a r c * z c =
          (∑ k ∈ range i, (z r * g r k) * (z c * g c k)) + (if c = i then (if r = i then δ else 0) else 0) +
            z r * E r c * z c := by
        intro c hc
        simp at hc
        have ea : a r c = ∑ k ∈ range i, g r k * g c k + (if r = i ∧ c = i then δ else 0) + E r c := by
          simp only [E]; ring
        have es : ∑ k ∈ range i, (z r * g r k) * (z c * g c k) = z r * (∑ k ∈ range i, g r k * g c k) * z c := by
          rw [mul_sum, sum_mul]
          exact sum_congr rfl (fun k _ => by ring)
        have ed : z r * (if r = i ∧ c = i then δ else 0) * z c = if c = i then (if r = i then δ else 0) else 0 := by
          by_cases er : r = i <;> by_cases ec : c = i <;> simp [er, ec, hzi]
        rw [es, ← ed, ea]
        simp only [E]
        ring
      rw [sum_congr rfl this, sum_add_distrib, sum_add_distrib, sum_comm]
      congr 1
      congr 1
      · exact sum_congr rfl (fun k _ => by rw [mul_sum])
      · simp
    rw [sum_congr rfl e1, sum_add_distrib, sum_add_distrib, sum_comm]
    have : ∑ k ∈ range i, ∑ r ∈ range (i + 1), (z r * g r k) * (∑ c ∈ range (i + 1), z c * g c k) = 0 :=
      sum_eq_zero (fun k hk => by
        rw [← sum_mul, hlin k (mem_range.mp hk), zero_mul])
    rw [this]
    simp [hEE]
  -- the deviations are small
  let G : Nat → K := fun r => ∑ k ∈ range i, (g r k) ^ 2
  have hG0 : ∀ r, 0 ≤ G r := fun r => sum_nonneg fun _ _ => sq_nonneg _
  have hsmall : |EE| ≤ γ * ((i + 1) * ∑ r ∈ range (i + 1), z r ^ 2 * G r) := by
    have b1 : |EE| ≤ ∑ r ∈ range (i + 1), ∑ c ∈ range (i + 1), γ * ∑ k ∈ range i, |z r * g r k| * |z c * g c k| := by
      refine (abs_sum_le_sum_abs _ _).trans (sum_le_sum fun r hr => ?_)
      refine (abs_sum_le_sum_abs _ _).trans (sum_le_sum fun c hc => ?_)
      simp at hr hc
      rw [abs_mul, abs_mul, mul_right_comm]
      refine (mul_le_mul_of_nonneg_left (hE r c (by omega) (by omega)) (by positivity)).trans (le_of_eq ?_)
      rw [mul_left_comm]
      congr 1
      rw [mul_sum]
      exact sum_congr rfl fun k _ => by rw [abs_mul, abs_mul, abs_mul]; ring
    have b2 : ∑ r ∈ range (i + 1), ∑ c ∈ range (i + 1), γ * ∑ k ∈ range i, |z r * g r k| * |z c * g c k| =
        γ * ∑ k ∈ range i, (∑ r ∈ range (i + 1), |z r * g r k|) ^ 2 := by
      simp only [← mul_sum]
      congr 1
      have : ∀ r ∈ range (i + 1), ∑ c ∈ range (i + 1), ∑ k ∈ range i, |z r * g r k| * |z c * g c k| =
          ∑ k ∈ range i, |z r * g r k| * ∑ c ∈ range (i + 1), |z c * g c k| := fun r _ => by
        rw [sum_comm]
        exact sum_congr rfl fun k _ => by rw [mul_sum]
      rw [sum_congr rfl this, sum_comm]
      exact sum_congr rfl fun k _ => by rw [← sum_mul, sq]
    rw [b2] at b1
    refine b1.trans (mul_le_mul_of_nonneg_left ?_ hγ)
    have b3 : ∀ k ∈ range i, (∑ r ∈ range (i + 1), |z r * g r k|) ^ 2 ≤
        (i + 1) * ∑ r ∈ range (i + 1), z r ^ 2 * g r k ^ 2 := fun k _ => by
      have := sq_sum_le_card_mul_sum_sq (s := range (i + 1)) (f := fun r => |z r * g r k|)
      simp only [sq_abs, mul_pow, card_range] at this
      exact_mod_cast this
    refine (sum_le_sum b3).trans (le_of_eq ?_)
    rw [← mul_sum, sum_comm]
    congr 1
    exact sum_congr rfl fun r _ => by rw [mul_sum]
  -- the rows above are bounded by the diagonal
  have hn1 : (i : K) + 1 ≤ n := by exact_mod_cast hi
  have hn0 : (1 : K) ≤ n := by
    have : (0 : K) ≤ i := Nat.cast_nonneg i
    linarith
  have hlam1 : lam ≤ 1 := by
    have := hpd (fun r => if r = i then 1 else 0)
    simp only [ite_pow, one_pow, ne_eq, OfNat.ofNat_ne_zero, not_false_eq_true, zero_pow, mul_ite, mul_one, mul_zero,
      ite_mul, one_mul, zero_mul, sum_ite_eq', mem_range, hi, if_true, sum_ite_eq] at this
    have h := hpos i hi
    nlinarith
  have hγ2 : γ ≤ 1 / 2 := by nlinarith
  have hGa : ∀ r, r < i → G r ≤ 2 * a r r := by
    intro r hr
    refine chol_arith1 hγ2 (hG0 r) ?_
    have := key1 r r hr.le hr le_rfl
    have e1 : ∑ k ∈ range i, g r k * g r k = G r := sum_congr rfl fun k _ => by rw [sq]
    have e2 : ∑ k ∈ range i, |g r k * g r k| = G r := sum_congr rfl fun k _ => by rw [abs_mul_self, sq]
    rwa [e1, e2] at this
  have hGi : ∑ k ∈ range i, |g i k * g i k| = G i := sum_congr rfl fun k _ => by rw [abs_mul_self, sq]
  have hGi' : ∑ k ∈ range i, g i k * g i k = G i := sum_congr rfl fun k _ => by rw [sq]
  have hform := hpd z
  rw [hval, shrink _ (fun r hr => by simp [hzz r hr]), sum_range_succ, hzi] at hform
  rw [sum_range_succ, hzi] at hsmall
  have hEle := (abs_le.1 hsmall).2
  set P := ∑ r ∈ range i, a r r * z r ^ 2 with hP
  have hP0 : 0 ≤ P := sum_nonneg fun r hr => mul_nonneg (hpos r (by simp at hr; omega)).le (sq_nonneg _)
  have hPG : ∑ r ∈ range i, z r ^ 2 * G r ≤ 2 * P := by
    rw [hP, mul_sum]
    refine sum_le_sum fun r hr => ?_
    have := mul_le_mul_of_nonneg_left (hGa r (mem_range.1 hr)) (sq_nonneg (z r))
    linarith
  have hai := hpos i hi
  have hGi0 := hG0 i
  rw [hGi]
  rw [hGi'] at hδ
  set Q := ∑ r ∈ range i, z r ^ 2 * G r with hQ
  have hQ0 : 0 ≤ Q := sum_nonneg fun r _ => mul_nonneg (sq_nonneg _) (hG0 r)
  exact chol_arith2 hγ hlam hlam1 hn0 (Nat.cast_nonneg i) hn1 hγl hai hGi0 hP0 hQ0 hPG hδ hform hEle

theorem rnd_pos (hu : R.u < 1) {x : K} (hx : 0 < x) : 0 < R.rnd x := by
  have h := (abs_le.1 (R.err x)).1
  rw [abs_of_pos hx] at h
  have := mul_lt_mul_of_pos_right hu hx
  linarith

theorem gam_ge (n : ℕ) : R.u ≤ R.gam (n + 2) := by
  have := R.gam_mono (show 1 ≤ n + 2 by omega)
  rwa [R.gam_one] at this

/-- input that is positive definite by a margin: a factor with positive diagonal is returned -/
theorem decChol_pd_fl {sqrt : Fl R → Fl R} (hs : FlSqrt sqrt) {n : Nat} {A : Mat (Fl R)} {a : Nat → Nat → Fl R} {lam : K}
    (hA : A.Is n n a) (hsym : ∀ r c, r < n → c < n → a r c = a c r) (hpos : ∀ r, r < n → 0 < (a r r).val)
    (hpd : ∀ x : Nat → K, lam * ∑ r ∈ range n, (a r r).val * x r ^ 2 ≤
      ∑ r ∈ range n, ∑ c ∈ range n, x r * (a r c).val * x c)
    (hlam : 0 < lam) (hγl : 2 * (n + 1) * R.gam (n + 2) ≤ lam) :
    ∃ l, A.decChol sqrt = some l ∧ CholInvFl n a n 0 l ∧ ∀ i, i < n → ∃ v, l.get i i = some v ∧ 0 < v.val := by
  have hu : ∀ i, i < n → R.u < 1 := fun i hi => by
    have hlam1 : lam ≤ 1 := by
      have := hpd (fun r => if r = i then 1 else 0)
      simp only [ite_pow, one_pow, ne_eq, OfNat.ofNat_ne_zero, not_false_eq_true, zero_pow, mul_ite, mul_one, mul_zero,
        ite_mul, one_mul, zero_mul, sum_ite_eq', mem_range, hi, if_true] at this
      have h := hpos i hi
      nlinarith
    have h1 := gam_ge (R := R) n
    have h2 : (0 : K) ≤ n := Nat.cast_nonneg n
    have h3 := mul_nonneg h2 (R.gam_nonneg (n + 2))
    linarith
  have houter := forRange_inv (a := 0) (b := n) (s := (Mat.zero n n : Mat (Fl R)))
    (f := fun l i => forRange 0 (i + 1) (fun l j => Mat.cholEntry sqrt A i l j) l)
    (fun i l => CholInvFl n a i 0 l ∧ ∀ r, r < i → ∃ v, l.get r r = some v ∧ 0 < v.val) (Nat.zero_le _)
    ⟨cholInvFl_zero n a, by intro r hr; omega⟩ (by
      intro i l _ hi hl
      have hinner := forRange_inv (a := 0) (b := i + 1) (s := l)
        (f := fun l j => Mat.cholEntry sqrt A i l j)
        (fun j l => CholInvFl n a i j l ∧ ∀ r, (r < i ∨ (r = i ∧ i < j)) → ∃ v, l.get r r = some v ∧ 0 < v.val)
        (Nat.zero_le _) ⟨hl.1, by
          intro r hr
          exact hl.2 r (by omega)⟩ (by
          intro j w _ hj ⟨hw, hpo⟩
          obtain ⟨g, hl, hz, hd⟩ := hw
          have hgp : ∀ r, r < i → 0 < (g r r).val := by
            intro r hr
            obtain ⟨v, h1, h2⟩ := hpo r (Or.inl hr)
            rw [hl.get (by omega) (by omega)] at h1
            cases h1; exact h2
          obtain ⟨e1, e2⟩ := cholEntry_fl hs hA hi (by omega : j ≤ i) hl hz hd
          by_cases e : i = j
          · subst e
            have hp := chol_pivot_fl (a := fun r c => (a r c).val) (g := fun r c => (g r c).val) hi
              (fun r c hr hc => by rw [hsym r c hr hc]) hpos hpd (R.gam_nonneg (n + 2)) hlam hγl
              (fun r c hr hrc hc => by
                rw [hz r c (by omega) (by omega) (by rintro ⟨h, _⟩; omega), Fl.zero_val])
              (fun r c hr hc => (hd r c (by omega) ⟨hc, Or.inl hr⟩).1)
              (fun c hc => (hd i c hi ⟨by omega, Or.inr ⟨rfl, hc⟩⟩).1)
              (fun r hr => (hgp r hr).ne')
            have hacc := R.accum_err (g i) (g i) i
            have hS : 0 ≤ ∑ k ∈ range i, |(g i k).val * (g i k).val| := sum_nonneg fun _ _ => abs_nonneg _
            have hgS := mul_le_mul_of_nonneg_right (R.gam_mono (show i ≤ n + 2 by omega)) hS
            have hle := sum_le_sum (fun k (_ : k ∈ range i) => le_abs_self ((g i k).val * (g i k).val))
            have hlt : 0 < (a i i).val - (Mat.accum (fun k => g i k * g i k) i).val := by
              have := (abs_le.1 hacc).2
              linarith
            have hrp : 0 < (a i i - Mat.accum (fun k => g i k * g i k) i).val := rnd_pos (hu i hi) hlt
            have hok : ¬ (a i i - Mat.accum (fun k => g i k * g i k) i < 0) := not_lt.2 (le_of_lt hrp)
            simp only [if_true] at e1 e2
            rw [if_pos hok] at e1
            obtain ⟨f1, f2, f3⟩ := e2 hok
            refine ⟨_, e1, ⟨_, f1, f2, f3⟩, ?_⟩
            intro r hr
            refine ⟨_, f1.get (by omega) (by omega), ?_⟩
            by_cases er : r = i
            · subst er
              rw [upd_same]
              obtain ⟨q, q0, q1, q2⟩ := hs _ hrp.le
              rw [q2]
              refine rnd_pos (hu r hi) (lt_of_le_of_ne q0 ?_)
              rintro rfl
              rw [zero_mul] at q1
              exact hrp.ne q1
            · rw [upd_ne _ _ (by omega)]
              exact hgp r (by omega)
          · simp only [if_neg e] at e1 e2
            have hgj : g j j ≠ 0 := fun h => (hgp j (by omega)).ne' ((Fl.eq_zero_iff _).1 h)
            rw [if_pos hgj] at e1
            obtain ⟨f1, f2, f3⟩ := e2 hgj
            refine ⟨_, e1, ⟨_, f1, f2, f3⟩, ?_⟩
            intro r hr
            refine ⟨_, f1.get (by omega) (by omega), ?_⟩
            rw [upd_ne _ _ (by omega)]
            exact hgp r (by omega))
      obtain ⟨l', h1, h2, h3⟩ := hinner
      exact ⟨l', h1, cholInvFl_next h2, fun r hr => h3 r (by omega)⟩)
  obtain ⟨l, h1, h2, h3⟩ := houter
  refine ⟨l, ?_, h2, h3⟩
  unfold Mat.decChol
  rw [hA.hm, hA.hn, if_pos rfl]
  exact h1

/-- the invariant at the end, as a statement about matrices -/
theorem cholInvFl_final {n : Nat} {M : Matrix (Fin n) (Fin n) (Fl R)} {l : Mat (Fl R)}
    (h : CholInvFl n (extM M) n 0 l) :
    ∃ L : Matrix (Fin n) (Fin n) (Fl R), Repr l L ∧ (∀ i j, i < j → L i j = 0) ∧
      (∀ i j, j < i → L j j ≠ 0) ∧
      ∀ i j, j ≤ i → |(M i j).val - ∑ k, (L i k).val * (L j k).val| ≤
        R.gam (n + 2) * ∑ k, |(L i k).val * (L j k).val| := by
  obtain ⟨g, hl, hz, hd⟩ := h
  refine ⟨mx n n g, hl.repr, ?_, ?_, ?_⟩
  · intro i j hij
    exact hz i j i.2 j.2 (by rintro ⟨h, _⟩; omega)
  · intro i j hij
    exact (hd i j i.2 ⟨by omega, Or.inl i.2⟩).2 hij
  · intro i j hji
    have := (hd i j i.2 ⟨hji, Or.inl i.2⟩).1
    rw [extM_apply] at this
    have ext : ∀ φ : K → K, φ 0 = 0 → ∑ k : Fin n, φ ((mx n n g i k).val * (mx n n g j k).val) =
        ∑ k ∈ range (j + 1), φ ((g i k).val * (g j k).val) := by
      intro φ hφ
      rw [show (∑ k : Fin n, φ ((mx n n g i k).val * (mx n n g j k).val)) =
        ∑ k ∈ range n, φ ((g i k).val * (g j k).val) from
        Fin.sum_univ_eq_sum_range (fun k => φ ((g i k).val * (g j k).val)) n]
      symm
      refine sum_subset (by intro k hk; simp at hk ⊢; have := j.2; omega) (fun k hk hk2 => ?_)
      simp at hk hk2
      rw [hz j k j.2 hk (by rintro ⟨h, _⟩; omega), Fl.zero_val, mul_zero, hφ]
    have e1 := ext id rfl
    have e2 := ext (fun x => |x|) abs_zero
    simp only [id] at e1
    rw [e1, e2]
    exact this

/-! ### C102 -/

/-- **C102**, backward error: whatever `dec_cholesky` returns in floating-point arithmetic is a lower triangular `L` with
`L Lᵀ = A + E` on and below the diagonal, `|E| ≤ ((1+u)^(n+2) - 1) |L| |L|ᵀ` entry by entry. -/
theorem C102_backward {sqrt : Fl R → Fl R} (hs : FlSqrt sqrt) {n : Nat} {A l : Mat (Fl R)}
    {M : Matrix (Fin n) (Fin n) (Fl R)} (hA : Repr A M) (h : A.decChol sqrt = some l) :
    ∃ L : Matrix (Fin n) (Fin n) (Fl R), Repr l L ∧ (∀ i j, i < j → L i j = 0) ∧
      ∀ i j, j ≤ i → |(M i j).val - ∑ k, (L i k).val * (L j k).val| ≤
        ((1 + R.u) ^ (n + 2) - 1) * ∑ k, |(L i k).val * (L j k).val| := by
  obtain ⟨L, h1, h2, -, h4⟩ := cholInvFl_final (decChol_some_fl hs hA.is h)
  exact ⟨L, h1, h2, h4⟩

/-- **C102**, backward error in terms of the matrix: if `γ = (1+u)^(n+2) - 1 ≤ 1/2`, every entry of the error `E` on and
below the diagonal satisfies `|E_ij| ≤ 2 γ √(a_ii a_jj)`, however large the condition number of the matrix is. -/
theorem C102_backward_diagonal {sqrt : Fl R → Fl R} (hs : FlSqrt sqrt) {n : Nat} {A l : Mat (Fl R)}
    {M : Matrix (Fin n) (Fin n) (Fl R)} (hA : Repr A M) (h : A.decChol sqrt = some l) {γ : K}
    (hγ : γ = (1 + R.u) ^ (n + 2) - 1) (hγ2 : γ ≤ 1 / 2) :
    ∃ L : Matrix (Fin n) (Fin n) (Fl R), Repr l L ∧ (∀ i j, i < j → L i j = 0) ∧ (∀ i, 0 ≤ (M i i).val) ∧
      ∀ i j, j ≤ i → ((M i j).val - ∑ k, (L i k).val * (L j k).val) ^ 2 ≤ 4 * γ ^ 2 * ((M i i).val * (M j j).val) := by
  obtain ⟨L, h1, h2, -, h4⟩ := cholInvFl_final (decChol_some_fl hs hA.is h)
  have hγ' : γ = R.gam (n + 2) := hγ
  have hγ0 : 0 ≤ γ := by rw [hγ']; exact R.gam_nonneg _
  have hG0 : ∀ i, 0 ≤ ∑ k, |(L i k).val| ^ 2 := fun i => sum_nonneg fun _ _ => by positivity
  have hG : ∀ i, ∑ k, |(L i k).val| ^ 2 ≤ 2 * (M i i).val := fun i => by
    refine chol_arith1 hγ2 (hG0 i) ?_
    have := h4 i i le_rfl
    have e1 : ∑ k, (L i k).val * (L i k).val = ∑ k, |(L i k).val| ^ 2 := sum_congr rfl fun k _ => by rw [sq_abs, sq]
    have e2 : ∑ k, |(L i k).val * (L i k).val| = ∑ k, |(L i k).val| ^ 2 :=
      sum_congr rfl fun k _ => by rw [abs_mul, sq]
    rwa [e1, e2, ← hγ'] at this
  refine ⟨L, h1, h2, fun i => by linarith [hG i, hG0 i], fun i j hij => ?_⟩
  have h5 := h4 i j hij
  have h6 : (∑ k, |(L i k).val * (L j k).val|) ^ 2 ≤ (2 * (M i i).val) * (2 * (M j j).val) := by
    simp only [abs_mul]
    exact (sum_mul_sq_le_sq_mul_sq _ _ _).trans (mul_le_mul (hG i) (hG j) (hG0 j) (by linarith [hG i, hG0 i]))
  rw [← sq_abs]
  refine (pow_le_pow_left₀ (abs_nonneg _) h5 2).trans ?_
  rw [mul_pow, ← hγ']
  refine (mul_le_mul_of_nonneg_left h6 (sq_nonneg γ)).trans (le_of_eq ?_)
  ring

/-- **C102**, success: a symmetric matrix with positive diagonal and `xᵀ A x ≥ λ Σ a_ii x_i²`, with
`λ ≥ 2 (n+1) ((1+u)^(n+2) - 1)`, is decomposed in spite of the rounding errors, with a positive diagonal of `L`. -/
theorem C102_success {sqrt : Fl R → Fl R} (hs : FlSqrt sqrt) {n : Nat} {A : Mat (Fl R)} {M : Matrix (Fin n) (Fin n) (Fl R)}
    (hA : Repr A M) (hsym : ∀ i j, M i j = M j i) (hpos : ∀ i, 0 < (M i i).val) {lam : K} (hlam : 0 < lam)
    (hpd : ∀ x : Fin n → K, lam * ∑ i, (M i i).val * x i ^ 2 ≤ ∑ i, ∑ j, x i * (M i j).val * x j)
    (hu : 2 * (n + 1) * ((1 + R.u) ^ (n + 2) - 1) ≤ lam) :
    ∃ l, ∃ L : Matrix (Fin n) (Fin n) (Fl R), A.decChol sqrt = some l ∧ Repr l L ∧ (∀ i j, i < j → L i j = 0) ∧
      (∀ i, 0 < (L i i).val) ∧
      ∀ i j, |(M i j).val - ∑ k, (L i k).val * (L j k).val| ≤
        ((1 + R.u) ^ (n + 2) - 1) * ∑ k, |(L i k).val * (L j k).val| := by
  obtain ⟨l, h1, h2, h3⟩ := decChol_pd_fl hs (lam := lam) hA.is
    (fun r c hr hc => by rw [extM_lt M hr hc, extM_lt M hc hr, hsym])
    (fun r hr => by rw [extM_lt M hr hr]; exact hpos _) (by
      intro x
      have := hpd (fun i => x i)
      rw [← Fin.sum_univ_eq_sum_range (fun r => (extM M r r).val * x r ^ 2),
        ← Fin.sum_univ_eq_sum_range (fun r => ∑ c ∈ range n, x r * (extM M r c).val * x c)]
      simp only [← Fin.sum_univ_eq_sum_range (fun c => x _ * (extM M _ c).val * x c), extM_apply]
      exact this) hlam hu
  obtain ⟨L, g1, g2, -, g4⟩ := cholInvFl_final h2
  refine ⟨l, L, h1, g1, g2, fun i => ?_, fun i j => ?_⟩
  · obtain ⟨v, e1, e2⟩ := h3 i i.2
    have e3 := g1.is.get i.2 i.2
    rw [extM_apply] at e3
    rw [e3] at e1
    cases e1
    exact e2
  · rcases le_total j i with h | h
    · exact g4 i j h
    · have := g4 j i h
      rw [hsym i j]
      simp only [mul_comm (L j _).val] at this
      exact this

end

/-- the correctly rounded square root of real numbers -/
noncomputable def flSqrt (R : Rounding ℝ) (x : Fl R) : Fl R := ⟨R.rnd (Real.sqrt x.val)⟩

theorem flSqrt_spec (R : Rounding ℝ) : FlSqrt (flSqrt R) := fun x hx =>
  ⟨Real.sqrt x.val, Real.sqrt_nonneg _, Real.mul_self_sqrt hx, rfl⟩

/-- In `f64` the matrix `[[2, -1], [-1, 2]]` is decomposed, and `L Lᵀ` differs from it by at most `((1+u)^4 - 1) |L| |L|ᵀ`. -/
example (p : ℕ) (hp : 1 ≤ p) (h53 : p = 53) :
    ∃ l, ∃ L : Matrix (Fin 2) (Fin 2) (Fl (binary ℝ p hp)),
      (⟨2, 2, [⟨2⟩, ⟨-1⟩, ⟨-1⟩, ⟨2⟩]⟩ : Mat (Fl (binary ℝ p hp))).decChol (flSqrt _) = some l ∧ Repr l L ∧
        ∀ i, 0 < (L i i).val := by
  obtain ⟨l, L, h1, h2, -, h3, -⟩ := C102_success (flSqrt_spec (binary ℝ p hp)) (lam := 1 / 2)
    (A := ⟨2, 2, [⟨2⟩, ⟨-1⟩, ⟨-1⟩, ⟨2⟩]⟩) (M := !![⟨2⟩, ⟨-1⟩; ⟨-1⟩, ⟨2⟩])
    (by constructor <;> simp [Mat.get, Fin.forall_fin_two])
    (by simp [Fin.forall_fin_two]) (by simp [Fin.forall_fin_two]) (by norm_num)
    (by
      intro x
      simp only [Fin.sum_univ_two, Matrix.of_apply, Matrix.cons_val', Matrix.cons_val_zero, Matrix.cons_val_one,
        Matrix.cons_val_fin_one]
      nlinarith [sq_nonneg (x 0 - x 1)])
    (by
      subst h53
      norm_num [binary])
  exact ⟨l, L, h1, h2, h3⟩

/-- **C102** is violated without the margin: in `f64` the matrix `[[25, 1], [1, 0.04]]` (with `0.04` the nearest `f64`,
slightly more than `1/25`) is positive definite, but `dec_cholesky` takes the square root of `0.04 - 0.2·0.2 < 0` and the
Rust result contains a NaN. -/
theorem C102_pd_violated (sqrt : Fl f64 → Fl f64) (hs : sqrt ⟨25⟩ = ⟨5⟩) :
    ∃ c : ℚ, f64.rnd (4 / 100) = c ∧ (∀ x y : ℚ, (x, y) ≠ (0, 0) → 0 < 25 * x ^ 2 + 2 * x * y + c * y ^ 2) ∧
      (⟨2, 2, [⟨25⟩, ⟨1⟩, ⟨1⟩, ⟨c⟩]⟩ : Mat (Fl f64)).decChol sqrt = none := by
  refine ⟨5764607523034235 / 144115188075855872, by decide +kernel, ?_, ?_⟩
  · intro x y h
    have e : 25 * x ^ 2 + 2 * x * y + 5764607523034235 / 144115188075855872 * y ^ 2 =
        (5 * x + y / 5) ^ 2 + (5764607523034235 / 144115188075855872 - 1 / 25) * y ^ 2 := by ring
    rw [e]
    by_cases hy : y = 0
    · have hx : x ≠ 0 := fun hx => h (by rw [hx, hy])
      subst hy
      norm_num
      positivity
    · have : 0 < y ^ 2 := by positivity
      nlinarith [sq_nonneg (5 * x + y / 5)]
  · have e1 : ((⟨25⟩ : Fl f64) - 0) = ⟨25⟩ := by decide +kernel
    have e2 : ¬ ((⟨25⟩ : Fl f64) < 0) := by decide +kernel
    have e3 : ¬ ((⟨5⟩ : Fl f64) = 0) := by decide +kernel
    have e4 : ((⟨5764607523034235 / 144115188075855872⟩ : Fl f64) - (0 + ((⟨1⟩ - 0) / ⟨5⟩) * ((⟨1⟩ - 0) / ⟨5⟩))) < 0 := by
      decide +kernel
    simp [Mat.decChol, Mat.cholEntry, forRange, Mat.zero, Mat.get, Mat.set, Mat.put, show List.range' 0 2 = [0, 1] from rfl,
      show List.range' 0 1 = [0] from rfl, e1, e2, e3, e4, hs]

end Verif
