import Verif.QRProps
import Mathlib.Algebra.BigOperators.Field

/-!
# C17, C18: Householder reflectors and the Hessenberg decomposition
-/

namespace Verif
open Finset

/-! ### What the reflector is made of, for any numbers -/

section Entries
variable {K : Type} [Zero K] [One K] [Add K] [Sub K] [Mul K] [Div K] [Neg K] [NatCast K] [LinearOrder K] {sqrt : K → K}

/-- the entries of the reflection vector -/
def hhW (f : Nat → K) (k : Nat) (v0 p : K) (i : Nat) : K :=
  if i < k then 0 else if i = k then v0 else f i / (2 * p)

theorem hhTail_is {d v : Mat K} {r : Nat} {f g : Nat → Nat → K} (hd : d.Is (r + 1) 1 f) (hv : v.Is (r + 1) 1 g)
    (p : K) : ∃ w, Mat.hhTail d v p = some w ∧
      w.Is (r + 1) 1 (fun i j => if 1 ≤ i then f i 0 / (2 * p) else g i j) := by
  unfold Mat.hhTail
  rw [hd.hm]
  by_cases h : r + 1 - 1 ≥ 1
  · rw [if_pos h]
    obtain ⟨t, h1, h2⟩ := Mat.vgetSlice_of (v := d) (n := r + 1) (s := 1) (e := r + 1 - 1) (x := fun i => f i 0)
      (fun i hi => hd.vget_col hi) (by simp [hd.hm, hd.hn]) (by omega) (by omega)
    obtain ⟨w, h3, h4⟩ := Mat.vsetSlice_is (s := 1) hv (Mat.apply_is h2 (fun e => e / (2 * p))) (by omega)
    refine ⟨w, by simp only [Option.bind_eq_bind] ; rw [h1]; exact h3, h4.congr ?_⟩
    intro i j hi hj
    have e : (1 ≤ i ∧ i < 1 + (r + 1 - 1 - 1 + 1)) ↔ 1 ≤ i := by omega
    simp only [e]
    split
    · rename_i hi1
      rw [show 1 + (i - 1) = i by omega]
    · rfl
  · rw [if_neg h]
    refine ⟨v, rfl, hv.congr ?_⟩
    intro i j hi hj
    have : ¬ (1 ≤ i) := by omega
    simp [this]

theorem hhBuild_is {d : Mat K} {k r : Nat} {f : Nat → Nat → K} {g : Nat → K} (hd : d.Is (r + 1) 1 f)
    (hf : ∀ i, i < r + 1 → f i 0 = g (k + i)) (d0 alpha : K) :
    let v0 := sqrt (1 / 2 * (1 - d0 / alpha))
    let w := hhW g k v0 (-alpha * v0)
    ∃ H, Mat.hhBuild sqrt (k + (r + 1)) k d d0 alpha = some H ∧
      H.Is (k + (r + 1)) (k + (r + 1)) (fun i j => (if i = j then 1 else 0) - w i * w j * 2) := by
  intro v0 w
  unfold Mat.hhBuild
  have hz := Mat.vzero_is (K := K) d.m
  rw [hd.hm] at hz
  obtain ⟨v2, h1, h2⟩ := hhTail_is hd (hz.put (by omega : 0 < r + 1) (by omega : 0 < 1) v0) (-alpha * v0)
  obtain ⟨u, h3, h4⟩ := Mat.vsetSlice_is (s := k) (Mat.vzero_is (K := K) (k + (r + 1))) h2 (by omega)
  have h5 : u.Is (k + (r + 1)) 1 (fun i _ => w i) := h4.congr (by
    intro i j hi hj
    have hj0 : j = 0 := by omega
    subst hj0
    simp only [w, hhW]
    by_cases c1 : i < k
    · have : ¬ (k ≤ i ∧ i < k + (r + 1)) := by omega
      rw [if_neg this, if_pos c1]
    · have : (k ≤ i ∧ i < k + (r + 1)) := by omega
      rw [if_pos this, if_neg c1]
      by_cases c2 : i = k
      · subst c2
        simp [upd]
      · have c3 : 1 ≤ i - k := by omega
        rw [if_pos c3, if_neg c2, hf _ (by omega), show k + (i - k) = i by omega])
  obtain ⟨W, h6, h7⟩ := Mat.dyadp_is h5 h5
  obtain ⟨H, h8, h9⟩ := Mat.sub_is (Mat.one_is (K := K) (k + (r + 1))) (Mat.mulScalar_is h7 2)
  refine ⟨H, ?_, h9⟩
  have e0 : (Mat.vzero d.m : Mat K).vset 0 v0 = some ((Mat.vzero (r + 1) : Mat K).put 0 0 v0) := by
    rw [hd.hm]; exact (Mat.vzero_is (K := K) (r + 1)).vset_col (by omega) _
  simp only [Option.bind_eq_bind]
  show (Option.bind ((Mat.vzero d.m : Mat K).vset 0 v0) _) = _
  rw [e0]
  simp only [Option.bind_some]
  rw [h1]
  simp only [Option.bind_some]
  rw [h3]
  simp only [Option.bind_some]
  rw [h6]
  exact h8

end Entries

section
variable {K : Type} [Field K] [LinearOrder K] [IsStrictOrderedRing K] {sqrt : K → K}

theorem norm2_is {v : Mat K} {n : Nat} {f : Nat → Nat → K} (h : v.Is n 1 f) :
    v.norm2 sqrt = some (sqrt (∑ i ∈ range n, f i 0 * f i 0)) := by
  unfold Mat.norm2
  have := Mat.sumLoop (a := 0) (b := n) (fun i => f i 0 * f i 0) (fun sum i => do
    let b ← v.vget i
    some (sum + b * b)) (0 : K) (by
      intro s k _ hk
      simp [h.vget_col hk])
  rw [h.hm, h.hn, mul_one, this]
  simp

theorem hh_facts (hs : IsSqrt sqrt) (g : Nat → K) (k r : Nat) (hS : ∑ i ∈ range (r + 1), g (k + i) * g (k + i) ≠ 0) :
    let nrm := sqrt (∑ i ∈ range (r + 1), g (k + i) * g (k + i))
    let alpha := if g k ≥ 0 then -nrm else nrm
    let v0 := sqrt (1 / 2 * (1 - g k / alpha))
    let w := hhW g k v0 (-alpha * v0)
    alpha ≠ 0 ∧ ∑ i ∈ range (k + (r + 1)), w i * w i = 1 ∧
      ∑ i ∈ range (k + (r + 1)), w i * g i = -alpha * v0 ∧
      alpha * alpha = ∑ i ∈ range (r + 1), g (k + i) * g (k + i) ∧
      g k - 2 * (-alpha * v0) * v0 = alpha ∧ -alpha * v0 ≠ 0 := by
  intro nrm alpha v0 w
  set S := ∑ i ∈ range (r + 1), g (k + i) * g (k + i) with hSdef
  have hS0 : 0 ≤ S := sum_nonneg (fun i _ => mul_self_nonneg _)
  obtain ⟨hn0, hnn⟩ := hs S hS0
  have hnn' : nrm * nrm = S := hnn
  have hnpos : 0 < nrm := lt_of_le_of_ne hn0 (fun h => hS (by rw [← hnn', ← h, zero_mul]))
  have haa : alpha * alpha = S := by
    simp only [alpha]; split <;> linear_combination hnn'
  have ha0 : alpha ≠ 0 := by
    intro h; rw [h, zero_mul] at haa; exact hS haa.symm
  have had : g k / alpha ≤ 0 := by
    by_cases h : g k ≥ 0
    · have e : alpha = -nrm := if_pos h
      rw [e]
      exact div_nonpos_of_nonneg_of_nonpos h (by linarith)
    · have e : alpha = nrm := if_neg h
      rw [e]
      exact div_nonpos_of_nonpos_of_nonneg (by linarith) hn0
  have harg : 0 < 1 / 2 * (1 - g k / alpha) := by
    have : (0 : K) < 1 / 2 := by norm_num
    apply mul_pos this; linarith
  obtain ⟨hv0, hvv⟩ := hs _ harg.le
  have hvv' : v0 * v0 = 1 / 2 * (1 - g k / alpha) := hvv
  have hv0ne : v0 ≠ 0 := by intro h; rw [h, zero_mul] at hvv'; rw [← hvv'] at harg; exact lt_irrefl _ harg
  have hvv2 : 2 * (v0 * v0) * alpha = alpha - g k := by rw [hvv']; field_simp
  set T := ∑ i ∈ range r, g (k + (i + 1)) * g (k + (i + 1)) with hT
  have hST : S = T + g k * g k := by rw [hSdef, sum_range_succ']; simp [hT]
  have hTe : T = (alpha - g k) * (alpha + g k) := by linear_combination -haa - hST
  have hp : -alpha * v0 ≠ 0 := mul_ne_zero (neg_ne_zero.mpr ha0) hv0ne
  have hwlt : ∀ i, i < k → w i = 0 := fun i hi => by simp [w, hhW, hi]
  have hwk : w k = v0 := by simp [w, hhW]
  have hwgt : ∀ i, w (k + (i + 1)) = g (k + (i + 1)) / (2 * (-alpha * v0)) := fun i => by
    simp only [w, hhW]
    rw [if_neg (by omega), if_neg (by omega)]
  have split : ∀ h : Nat → K, (∀ i, i < k → h i = 0) →
      ∑ i ∈ range (k + (r + 1)), h i = ∑ i ∈ range r, h (k + (i + 1)) + h k := by
    intro h hh
    rw [sum_range_add, sum_eq_zero (fun i hi => hh i (mem_range.mp hi)), zero_add, sum_range_succ']
    simp
  refine ⟨ha0, ?_, ?_, haa, ?_, hp⟩
  · rw [split _ (fun i hi => by rw [hwlt i hi, zero_mul]), hwk]
    have : ∑ i ∈ range r, w (k + (i + 1)) * w (k + (i + 1)) =
        T / (2 * (-alpha * v0) * (2 * (-alpha * v0))) := by
      rw [hT, sum_div]
      refine sum_congr rfl (fun i _ => ?_)
      rw [hwgt]; field_simp
    rw [this, hTe]
    have e : alpha - g k = 2 * (v0 * v0) * alpha := hvv2.symm
    have e2 : g k = alpha - 2 * (v0 * v0) * alpha := by linear_combination -e
    rw [e, e2]
    field_simp
    ring
  · rw [split _ (fun i hi => by rw [hwlt i hi, zero_mul]), hwk]
    have : ∑ i ∈ range r, w (k + (i + 1)) * g (k + (i + 1)) = T / (2 * (-alpha * v0)) := by
      rw [hT, sum_div]
      refine sum_congr rfl (fun i _ => ?_)
      rw [hwgt]; field_simp
    rw [this, hTe]
    have e : alpha - g k = 2 * (v0 * v0) * alpha := hvv2.symm
    have e2 : g k = alpha - 2 * (v0 * v0) * alpha := by linear_combination -e
    rw [e, e2]
    field_simp
    ring
  · linear_combination hvv2

/-- the reflector as a matrix -/
def hhM {n : Nat} (w : Fin n → K) : Matrix (Fin n) (Fin n) K := Matrix.of fun i j => (if i = j then 1 else 0) - 2 * (w i * w j)

theorem hhM_mul {n p : Nat} (w : Fin n → K) (X : Matrix (Fin n) (Fin p) K) (i : Fin n) (j : Fin p) :
    (hhM w * X) i j = X i j - 2 * (w i * ∑ l, w l * X l j) := by
  rw [Matrix.mul_apply]
  simp only [hhM, Matrix.of_apply, sub_mul, sum_sub_distrib, ite_mul, one_mul, zero_mul, sum_ite_eq, mem_univ,
    if_true, mul_sum]
  congr 1
  refine sum_congr rfl (fun l _ => by ring)

theorem hhM_transpose {n : Nat} (w : Fin n → K) : (hhM w).transpose = hhM w := by
  ext i j
  simp only [hhM, Matrix.transpose_apply, Matrix.of_apply, eq_comm (a := i) (b := j)]
  ring

theorem hhM_orth {n : Nat} {w : Fin n → K} (h : ∑ i, w i * w i = 1) : hhM w * hhM w = 1 := by
  ext i j
  rw [hhM_mul]
  have : ∑ l, w l * hhM w l j = -w j := by
    simp only [hhM, Matrix.of_apply, mul_sub, sum_sub_distrib, mul_ite, mul_one, mul_zero, sum_ite_eq', mem_univ,
      if_true]
    have : ∑ x, w x * (2 * (w x * w j)) = 2 * w j * ∑ x, w x * w x := by
      rw [mul_sum]; exact sum_congr rfl (fun x _ => by ring)
    rw [this, h]; ring
  rw [this]
  simp only [hhM, Matrix.of_apply, Matrix.one_apply]
  ring

/-- What `householder` returns on a column `v` of length `n > 1`: the `1 x 1` identity when the tail is zero, and
    otherwise a reflector along a unit vector supported on the tail, which maps the tail to a multiple of `e_k`. -/
theorem householder_is (hs : IsSqrt sqrt) {v : Mat K} {n k : Nat} {x : Fin n → K} (hv : ColRepr v x) (hn : 1 < n)
    (hk : k < n) :
    (∀ i : Fin n, k ≤ i → x i = 0) ∧ v.householder sqrt k = some (Mat.one 1) ∨
    ∃ (H : Mat K) (w : Fin n → K) (al : K), v.householder sqrt k = some H ∧ Repr H (hhM w) ∧
      ∑ i, w i * w i = 1 ∧ (∀ i : Fin n, (i : Nat) < k → w i = 0) ∧
      (∀ i : Fin n, k < i → x i - 2 * (w i * ∑ l, w l * x l) = 0) ∧
      x ⟨k, hk⟩ - 2 * (w ⟨k, hk⟩ * ∑ l, w l * x l) = al ∧
      al ≠ 0 ∧ al * al = ∑ i : Fin n, if k ≤ i then x i * x i else 0 := by
  obtain ⟨r, rfl⟩ : ∃ r, n = k + (r + 1) := ⟨n - k - 1, by omega⟩
  have hvi := hv.is
  set g := extV x with hg
  have hgx : ∀ i : Fin (k + (r + 1)), g i = x i := fun i => extV_apply x i
  obtain ⟨d, hd1, hd2⟩ := Mat.vgetSlice_of (v := v) (n := k + (r + 1)) (s := k) (e := k + (r + 1) - 1)
    (x := g) (fun i hi => hvi.vget_col hi) (by rw [hvi.hm, hvi.hn]; split <;> omega) (by omega) (by omega)
  rw [show k + (r + 1) - 1 - k + 1 = r + 1 by omega] at hd2
  have hd0 : d.vget 0 = some (g k) := hd2.vget_col (by omega)
  have hnorm := norm2_is (sqrt := sqrt) hd2
  have hstart : v.householder sqrt k =
      (let alpha := if g k ≥ 0 then -sqrt (∑ i ∈ range (r + 1), g (k + i) * g (k + i))
        else sqrt (∑ i ∈ range (r + 1), g (k + i) * g (k + i))
      if alpha = 0 then some (Mat.one 1) else Mat.hhBuild sqrt (k + (r + 1)) k d (g k) alpha) := by
    unfold Mat.householder
    rw [hvi.hm, if_neg (by omega), if_neg (by omega), if_neg (by omega), hvi.hn]
    simp only [Option.bind_eq_bind]
    rw [hd1]
    simp only [Option.bind_some]
    rw [hd0]
    simp only [Option.bind_some]
    rw [hnorm]
    simp only [Option.bind_some]
  have hsum : ∀ h : Nat → K, ∑ i : Fin (k + (r + 1)), h i = ∑ i ∈ range (k + (r + 1)), h i := fun h =>
    Fin.sum_univ_eq_sum_range h _
  by_cases hS : ∑ i ∈ range (r + 1), g (k + i) * g (k + i) = 0
  · left
    have h0 := hs 0 le_rfl
    have h00 : sqrt 0 = 0 := mul_self_eq_zero.mp h0.2
    rw [hstart, hS]
    refine ⟨?_, by simp [h00]⟩
    intro i hi
    have := (sum_eq_zero_iff_of_nonneg (fun i _ => mul_self_nonneg _)).mp hS (i - k)
      (mem_range.mpr (by have := i.2; omega))
    rw [← hgx]
    rw [show k + ((i : Nat) - k) = i by omega] at this
    exact mul_self_eq_zero.mp this
  · right
    obtain ⟨f1, f2, f3, f4, f5, f6⟩ := hh_facts hs g k r hS
    obtain ⟨H, hH1, hH2⟩ := hhBuild_is (sqrt := sqrt) (k := k) (g := g) hd2 (fun i _ => rfl) (g k)
      (if g k ≥ 0 then -sqrt (∑ i ∈ range (r + 1), g (k + i) * g (k + i))
        else sqrt (∑ i ∈ range (r + 1), g (k + i) * g (k + i)))
    rw [hstart]
    set alpha := (if g k ≥ 0 then -sqrt (∑ i ∈ range (r + 1), g (k + i) * g (k + i))
        else sqrt (∑ i ∈ range (r + 1), g (k + i) * g (k + i))) with halpha
    set v0 := sqrt (1 / 2 * (1 - g k / alpha)) with hv0
    set w := hhW g k v0 (-alpha * v0) with hw
    have hwx : ∑ l : Fin (k + (r + 1)), w l * x l = -alpha * v0 := by
      rw [← f3, ← hsum]
      exact sum_congr rfl (fun i _ => by rw [hgx])
    refine ⟨H, fun i => w i, alpha, ?_, hH2.repr_of ?_, ?_, ?_, ?_, ?_, f1, ?_⟩
    · simp only [if_neg f1]; exact hH1
    · intro i j
      simp only [hhM, Matrix.of_apply, Fin.ext_iff]
      ring
    · rw [hsum (fun i => w i * w i), f2]
    · intro i hi; simp [hw, hhW, hi]
    · intro i hi
      simp only
      rw [hwx, ← hgx]
      have : w i = g i / (2 * (-alpha * v0)) := by
        simp only [hw, hhW]; rw [if_neg (by omega), if_neg (by omega)]
      rw [this]
      generalize -alpha * v0 = P at f6
      field_simp
      ring
    · simp only
      rw [hwx, ← hgx]
      have : w k = v0 := by simp [hw, hhW]
      simp only [this]
      linear_combination f5
    · rw [f4]
      have e1 : ∀ i : Fin (k + (r + 1)), (if k ≤ (i : Nat) then x i * x i else 0) =
          (fun i : Nat => if k ≤ i then g i * g i else 0) i := by
        intro i; simp only [hgx]
      rw [sum_congr rfl (fun i _ => e1 i), hsum (fun i : Nat => if k ≤ i then g i * g i else 0),
        sum_range_add _ k (r + 1),
        sum_eq_zero (s := range k) (fun i hi => if_neg (by have := mem_range.mp hi; omega)), zero_add]
      exact sum_congr rfl (fun i _ => by simp)

/-- invariant of the Hessenberg reduction before step `k` -/
def HessInv {n : Nat} (M : Matrix (Fin n) (Fin n) K) (k : Nat) (st : Mat K × Mat K) : Prop :=
  ∃ Q H : Matrix (Fin n) (Fin n) K, Repr st.1 Q ∧ Repr st.2 H ∧ Q.transpose * Q = 1 ∧
    Q * M * Q.transpose = H ∧
    (∀ i c : Fin n, (c : Nat) + 1 < k → (c : Nat) + 1 < i → H i c = 0) ∧
    (∀ i c : Fin n, (c : Nat) + 1 < k → (c : Nat) + 1 = i → H i c ≠ 0)

theorem hessStep_inv (hs : IsSqrt sqrt) {n k : Nat} {M : Matrix (Fin n) (Fin n) K} {st : Mat K × Mat K}
    (hk1 : 1 ≤ k) (hk : k < n) (h : HessInv M k st) :
    (Mat.hessStep sqrt st k = none ∧ ∃ H : Matrix (Fin n) (Fin n) K, Repr st.2 H ∧
      ∀ i c : Fin n, (c : Nat) + 1 = k → k ≤ i → H i c = 0) ∨
    ∃ st', Mat.hessStep sqrt st k = some st' ∧ HessInv M (k + 1) st' := by
  obtain ⟨Q, H, hQ, hH, ho, hM, hz, hnz⟩ := h
  have hcol : k - 1 < n := by omega
  obtain ⟨v, hv1, hv2⟩ := Mat.getColumn_is hH.is hcol
  set fc : Fin n := ⟨k - 1, hcol⟩ with hfc
  have hvx : ColRepr v (fun i => H i fc) := hv2.colRepr_of (fun i => by rw [extM_lt H i.2 hcol])
  rcases householder_is hs hvx (by omega) hk with ⟨h0, hno⟩ | ⟨P, w, al, hP, hPr, hw1, hw2, hw3, hw4, hal, _⟩
  · left
    have : (Mat.one 1 : Mat K).mul st.2 = none := by
      unfold Mat.mul
      rw [if_neg]
      rw [hH.rows]
      show ¬ (1 = n)
      omega
    refine ⟨?_, H, hH, ?_⟩
    · unfold Mat.hessStep
      simp only [Option.bind_eq_bind]
      rw [hv1]
      simp only [Option.bind_some]
      rw [hno]
      simp only [Option.bind_some]
      rw [this]
      rfl
    · intro i c hc hi
      have : c = fc := Fin.ext (by simp [hfc]; omega)
      rw [this]
      exact h0 i hi
  · right
    obtain ⟨h1, hh1, hh2⟩ := repr_mul hPr hH
    obtain ⟨q1, hq1, hq2⟩ := repr_mul hPr hQ
    obtain ⟨pt, hp1, hp2⟩ := Mat.transpose_is hPr.is (Or.inl rfl) (Or.inl (by omega))
    have hp3 : Repr pt (hhM w) := hp2.repr_of (fun i j => by
      rw [extM_apply]; exact congrFun (congrFun (hhM_transpose w) i) j)
    obtain ⟨h2, hg1, hg2⟩ := repr_mul hh2 hp3
    have hT := hhM_transpose w
    -- the right multiplication leaves the first columns alone
    have hright : ∀ (X : Matrix (Fin n) (Fin n) K) (i c : Fin n), (c : Nat) < k → (X * hhM w) i c = X i c := by
      intro X i c hc
      rw [Matrix.mul_apply]
      have : ∀ l, X i l * hhM w l c = if l = c then X i l else 0 := by
        intro l
        simp only [hhM, Matrix.of_apply, hw2 c hc, mul_zero, sub_zero]
        split <;> simp
      rw [sum_congr rfl (fun l _ => this l)]
      simp
    refine ⟨(q1, h2), ?_, hhM w * Q, hhM w * H * hhM w, hq2, hg2, ?_, ?_, ?_, ?_⟩
    · unfold Mat.hessStep
      simp only [Option.bind_eq_bind]
      rw [hv1]
      simp only [Option.bind_some]
      rw [hP]
      simp only [Option.bind_some]
      rw [hh1]
      simp only [Option.bind_some]
      rw [hq1]
      simp only [Option.bind_some]
      rw [hp1]
      simp only [Option.bind_some]
      rw [hg1]
      rfl
    · rw [Matrix.transpose_mul, hT, Matrix.mul_assoc, ← Matrix.mul_assoc _ _ Q, hhM_orth hw1, Matrix.one_mul, ho]
    · rw [Matrix.transpose_mul, hT, ← hM]
      simp only [Matrix.mul_assoc]
    · intro i c hc hi
      rw [hright _ _ _ (by omega), hhM_mul]
      by_cases e : (c : Nat) + 1 = k
      · have : c = fc := Fin.ext (by simp [hfc]; omega)
        rw [this]
        exact hw3 i (by omega)
      · rw [hz i c (by omega) hi]
        have : ∑ l, w l * H l c = 0 := sum_eq_zero (fun l _ => by
          by_cases hl : (l : Nat) < k
          · rw [hw2 l hl, zero_mul]
          · rw [hz l c (by omega) (by omega), mul_zero])
        rw [this]; ring
    · intro i c hc hi
      rw [hright _ _ _ (by omega), hhM_mul]
      by_cases e : (c : Nat) + 1 = k
      · have ec : c = fc := Fin.ext (by simp [hfc]; omega)
        have ei : i = ⟨k, hk⟩ := Fin.ext (by simp; omega)
        rw [ec, ei, hw4]
        exact hal
      · rw [show w i = 0 from hw2 i (by omega), zero_mul, mul_zero, sub_zero]
        exact hnz i c (by omega) hi

theorem decHess_inv (hs : IsSqrt sqrt) {n : Nat} {A q h : Mat K} {M : Matrix (Fin n) (Fin n) K} (hA : Repr A M)
    (hr : A.decHess sqrt = some (q, h)) :
    ∃ Q H : Matrix (Fin n) (Fin n) K, Repr q Q ∧ Repr h H ∧ Q * H * Q.transpose = M ∧
      Q * Q.transpose = 1 ∧ Q.transpose * Q = 1 ∧
      (∀ i c : Fin n, (c : Nat) + 1 < i → H i c = 0) ∧ (∀ i c : Fin n, (c : Nat) + 1 = i → H i c ≠ 0) := by
  unfold Mat.decHess at hr
  rw [hA.rows, hA.cols] at hr
  by_cases hn : n = n ∧ n ≠ 0
  · rw [if_pos hn] at hr
    simp only [Option.bind_eq_bind, Option.bind_eq_some_iff] at hr
    obtain ⟨st, hst, q', hq', hres⟩ := hr
    simp only [Option.some.injEq, Prod.mk.injEq] at hres
    obtain ⟨rfl, rfl⟩ := hres
    have := forRange_inv_of_some (fun k st => HessInv M k st) (a := 1) (b := n)
      ⟨1, M, repr_one n, hA, by simp, by simp, by intros; omega, by intros; omega⟩ (by
        intro k u u' h1 h2 hu hf
        rcases hessStep_inv hs h1 h2 hu with ⟨h0, _⟩ | ⟨st', h3, h4⟩
        · rw [h0] at hf; cases hf
        · rw [h3] at hf; cases hf; exact h4) hst
    rw [Nat.max_eq_right (by omega)] at this
    obtain ⟨Q, H, hQ, hH, ho, hM, hz, hnz⟩ := this
    obtain ⟨B, hB1, hB2⟩ := Mat.transpose_is hQ.is (Or.inl rfl) (Or.inl (by omega))
    rw [hB1] at hq'; cases hq'
    have ho' : Q * Q.transpose = 1 := mul_eq_one_comm.mp ho
    refine ⟨Q.transpose, H, hB2.repr_of (fun i j => by rw [extM_apply]; rfl), hH, ?_, ?_, ?_, ?_, ?_⟩
    · rw [Matrix.transpose_transpose, ← hM]
      calc Q.transpose * (Q * M * Q.transpose) * Q = (Q.transpose * Q) * M * (Q.transpose * Q) := by
            simp only [Matrix.mul_assoc]
        _ = M := by rw [ho]; simp
    · rw [Matrix.transpose_transpose, ho]
    · rw [Matrix.transpose_transpose, ho']
    · intro i c hi
      exact hz i c (by have := i.2; omega) hi
    · intro i c hi
      exact hnz i c (by have := i.2; omega) hi
  · rw [if_neg hn] at hr; cases hr

end

/-! ### C17 -/

/-- For a column of length at least two whose entries from `k` on are not all zero, `householder` returns a
    symmetric orthogonal matrix of that size which keeps the entries above `k`, and maps those below `k` to zero;
    entry `k` of the image has the norm of the tail. Missing from C17: zero tails (`C17_householder_violated`). -/
theorem C17_householder_partial {n k : Nat} {v : Mat ℝ} {x : Fin n → ℝ} (hv : ColRepr v x) (hn : 1 < n) (hk : k < n)
    (hx : ∃ i : Fin n, k ≤ i ∧ x i ≠ 0) :
    ∃ (h : Mat ℝ) (H : Matrix (Fin n) (Fin n) ℝ), v.householder Real.sqrt k = some h ∧ Repr h H ∧
      H.transpose = H ∧ H * H.transpose = 1 ∧
      (∀ i : Fin n, (i : Nat) < k → (H.mulVec x) i = x i) ∧
      (∀ i : Fin n, k < i → (H.mulVec x) i = 0) ∧
      (H.mulVec x ⟨k, hk⟩) * (H.mulVec x ⟨k, hk⟩) = ∑ i : Fin n, if k ≤ i then x i * x i else 0 := by
  rcases householder_is isSqrt_real hv hn hk with ⟨h0, _⟩ | ⟨P, w, al, hP, hPr, hw1, hw2, hw3, hw4, hal, hal2⟩
  · obtain ⟨i, hi, hne⟩ := hx
    exact absurd (h0 i hi) hne
  · have key : ∀ i, (hhM w).mulVec x i = x i - 2 * (w i * ∑ l, w l * x l) := by
      intro i
      have := hhM_mul w (Matrix.of fun l (_ : Fin 1) => x l) i 0
      simpa [Matrix.mul_apply, Matrix.mulVec, dotProduct] using this
    refine ⟨P, hhM w, hP, hPr, hhM_transpose w, ?_, ?_, ?_, ?_⟩
    · rw [hhM_transpose, hhM_orth hw1]
    · intro i hi; rw [key, hw2 i hi]; ring
    · intro i hi; rw [key]; exact hw3 i hi
    · rw [key, hw4, hal2]

example : Mat.householder (K := ℚ) Rat.sqrt ⟨4, 1, [7, 7, 24, 0]⟩ 1 =
    some ⟨4, 4, [1, 0, 0, 0, 0, -7/25, -24/25, 0, 0, -24/25, 7/25, 0, 0, 0, 0, 1]⟩ := by decide +kernel

/-- length one: the identity -/
theorem C17_householder_one (x : ℝ) : (⟨1, 1, [x]⟩ : Mat ℝ).householder Real.sqrt 0 = some (Mat.one 1) := by
  simp [Mat.householder]

/-- an index past the end panics -/
theorem C17_householder_range (v : Mat ℝ) (k : Nat) (hk : v.m ≤ k) : v.householder Real.sqrt k = none := by
  simp [Mat.householder, hk]

example : Mat.householder (K := ℚ) Rat.sqrt ⟨2, 1, [3, 4]⟩ 2 = none := by decide +kernel

/-- Whenever the entries from `k` on are zero the result is the `1 x 1` identity instead of an `n x n` matrix. -/
theorem C17_householder_violated {n k : Nat} {v : Mat ℝ} {x : Fin n → ℝ} (hv : ColRepr v x) (hn : 1 < n)
    (hk : k < n) (hx : ∀ i : Fin n, k ≤ i → x i = 0) :
    v.householder Real.sqrt k = some (Mat.one 1) ∧ (Mat.one 1 : Mat ℝ).m ≠ n := by
  refine ⟨?_, by show 1 ≠ n; omega⟩
  rcases householder_is isSqrt_real hv hn hk with ⟨_, h⟩ | ⟨P, w, al, hP, hPr, hw1, hw2, hw3, hw4, hal, hal2⟩
  · exact h
  · exfalso
    apply hal
    rw [sum_eq_zero] at hal2
    · exact mul_self_eq_zero.mp hal2
    · intro i _
      split
      · rename_i hi; rw [hx i hi, zero_mul]
      · rfl

example : Mat.householder (K := ℚ) Rat.sqrt ⟨3, 1, [7, 0, 0]⟩ 1 = some ⟨1, 1, [1]⟩ := by decide +kernel

/-! ### C18 -/

/-- Whatever `dec_hessenberg` returns is a Hessenberg decomposition, and its subdiagonal has no zero. Missing from
    C18: a result for every square matrix (`C18_hessenberg_violated`). -/
theorem C18_hessenberg_partial {n : Nat} {A q h : Mat ℝ} {M : Matrix (Fin n) (Fin n) ℝ} (hA : Repr A M)
    (hr : A.decHess Real.sqrt = some (q, h)) :
    ∃ Q H : Matrix (Fin n) (Fin n) ℝ, Repr q Q ∧ Repr h H ∧ Q * H * Q.transpose = M ∧
      Q * Q.transpose = 1 ∧ Q.transpose * Q = 1 ∧
      (∀ i c : Fin n, (c : Nat) + 1 < i → H i c = 0) ∧ (∀ i c : Fin n, (c : Nat) + 1 = i → H i c ≠ 0) :=
  decHess_inv isSqrt_real hA hr

example : Mat.decHess (K := ℚ) Rat.sqrt ⟨3, 3, [1, 7, 24, 5, 0, 0, 0, 25, 0]⟩ =
    some (⟨3, 3, [1, 0, 0, 0, -7/25, -24/25, 0, 24/25, -7/25]⟩,
      ⟨3, 3, [1, -25, 0, -7/5, 168/25, -576/25, 24/5, 49/25, -168/25]⟩) := by decide +kernel

/-- `dec_hessenberg` panics on every matrix of size at least two whose first column is zero below the diagonal; so
    on every upper triangular matrix, the identity included. -/
theorem C18_hessenberg_violated {n : Nat} {A : Mat ℝ} {M : Matrix (Fin n) (Fin n) ℝ} (hA : Repr A M) (hn : 1 < n)
    (h0 : ∀ i : Fin n, 0 < (i : Nat) → M i ⟨0, by omega⟩ = 0) : A.decHess Real.sqrt = none := by
  unfold Mat.decHess
  rw [hA.rows, hA.cols, if_pos ⟨rfl, by omega⟩]
  have hstep : Mat.hessStep Real.sqrt (Mat.one n, A) 1 = none := by
    rcases hessStep_inv isSqrt_real (M := M) (st := (Mat.one n, A)) le_rfl hn
      ⟨1, M, repr_one n, hA, by simp, by simp, by intros; omega, by intros; omega⟩ with ⟨h, _⟩ | ⟨st', h1, h2⟩
    · exact h
    · exfalso
      obtain ⟨v, hv1, hv2⟩ := Mat.getColumn_is hA.is (j := 0) (by omega)
      have hvx : ColRepr v (fun i => M i ⟨0, by omega⟩) :=
        hv2.colRepr_of (fun i => by rw [extM_lt M i.2 (by omega)])
      have hh := (C17_householder_violated hvx hn hn (fun i hi => h0 i (by omega))).1
      have : (Mat.one 1 : Mat ℝ).mul A = none := by
        unfold Mat.mul
        rw [if_neg]
        rw [hA.rows]
        show ¬ (1 = n)
        omega
      unfold Mat.hessStep at h1
      simp only [Option.bind_eq_bind, Nat.sub_self] at h1
      rw [hv1] at h1
      simp only [Option.bind_some] at h1
      rw [hh] at h1
      simp only [Option.bind_some] at h1
      rw [this] at h1
      cases h1
  rw [show forRange 1 n (Mat.hessStep Real.sqrt) (Mat.one n, A) = none from by
    rw [forRange_step hn, hstep]; rfl]
  rfl

example : Mat.decHess (K := ℚ) Rat.sqrt (Mat.one 2) = none := by decide +kernel

/-- non-square and empty input panic -/
theorem C18_hessenberg_shape {A : Mat ℝ} (h : A.m ≠ A.n ∨ A.m = 0) : A.decHess Real.sqrt = none := by
  unfold Mat.decHess
  rw [if_neg]
  rintro ⟨h1, h2⟩
  rcases h with h | h
  · exact h h1
  · exact h2 h

end Verif
