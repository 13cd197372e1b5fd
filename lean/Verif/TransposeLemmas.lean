import Verif.TransposeModel
import Verif.MatLemmas
import Mathlib.Data.Nat.GCD.Basic
import Mathlib.Data.Nat.ModEq
import Mathlib.Data.Int.ModEq
import Mathlib.Data.Fintype.Card
import Mathlib.Data.Fintype.EquivFin

/-! # Lemmas about the in-place transpose -/

namespace Verif
namespace Mat
variable {K : Type}

theorem gcd_eq (m n : Nat) : gcd m n = Nat.gcd m n := by
  induction m using Nat.strong_induction_on generalizing n with
  | _ m ih =>
    unfold gcd
    by_cases h : m = 0
    · simp [h]
    · rw [dif_neg h, ih _ (Nat.mod_lt _ (Nat.pos_of_ne_zero h)), Nat.gcd_rec m n]

/-- number-theoretic core, gather direction -/
theorem core_div {m n c a b i j : Nat} (hm : m = a * c) (hn : n = b * c)
    (hn0 : 0 < n) (hj : j < n) : (i * n + j) / m / b = i / a := by
  have h1 : m * b = n * a := by rw [hm, hn]; ring
  rw [Nat.div_div_eq_div_mul, h1, ← Nat.div_div_eq_div_mul]
  congr 1
  rw [Nat.add_comm, Nat.add_mul_div_right _ _ hn0, Nat.div_eq_of_lt hj]; simp

theorem gatherSa_some {m n a i j : Nat} (hn0 : 0 < n) :
    gatherSa m n i j a = some ((j + i * n - i / a) % m) := by
  have : i / a ≤ j + i * n := by
    calc i / a ≤ i := Nat.div_le_self _ _
      _ ≤ i * n := Nat.le_mul_of_pos_right _ hn0
      _ ≤ _ := by omega
  simp [gatherSa, this]

theorem core_row {m n c a b i j : Nat} (hm : m = a * c) (hn : n = b * c)
    (hn0 : 0 < n) (hj : j < n) :
    ((j + i * n - i / a) % m + (i * n + j) / m / b) % m = (i * n + j) % m := by
  rw [core_div hm hn hn0 hj, Nat.mod_add_mod]
  congr 1
  have : i / a ≤ j + i * n := by
    calc i / a ≤ i := Nat.div_le_self _ _
      _ ≤ i * n := Nat.le_mul_of_pos_right _ hn0
      _ ≤ _ := by omega
  omega

theorem core_scatter {m n c a b i j : Nat} (hm : m = a * c) (hn : n = b * c)
    (hn0 : 0 < n) (hj : j < n) :
    scatterDa m n ((j + i * n - i / a) % m) ((i * n + j) / m) b = j := by
  unfold scatterDa
  rw [core_row hm hn hn0 hj, Nat.mod_add_div']
  rw [Nat.add_comm, Nat.add_mul_mod_self_right]
  exact Nat.mod_eq_of_lt hj

/-- `scatter_da i` is injective on the columns -/
theorem scatter_inj {m n c a b s q r : Nat} (hc : 0 < c) (hm : m = a * c) (hn : n = b * c)
    (hab : Nat.Coprime a b) (hq : q < n) (hr : r < n)
    (h : scatterDa m n s q b = scatterDa m n s r b) : q = r := by
  have hb : 0 < b := by
    rcases Nat.eq_zero_or_pos b with h0 | h0
    · subst h0; omega
    · exact h0
  unfold scatterDa at h
  have h1 : (s + q / b) % m + q * m ≡ (s + r / b) % m + r * m [MOD n] := h
  have hcn : c ∣ n := ⟨b, by rw [hn]; ring⟩
  have hcm : c ∣ m := ⟨a, by rw [hm]; ring⟩
  have h2 := h1.of_dvd hcn
  have e1 : ∀ x y : Nat, (s + x) % m + y * m ≡ s + x [MOD c] := by
    intro x y
    have e2 : (s + x) % m ≡ s + x [MOD c] := (Nat.mod_modEq _ _).of_dvd hcm
    have e3 : y * m ≡ 0 [MOD c] := (Nat.modEq_zero_iff_dvd).2 (Dvd.dvd.mul_left hcm y)
    simpa using e2.add e3
  have h3 : s + q / b ≡ s + r / b [MOD c] := ((e1 _ _).symm.trans h2).trans (e1 _ _)
  have h4 : q / b ≡ r / b [MOD c] := Nat.ModEq.add_left_cancel' s h3
  have hqb : q / b < c := Nat.div_lt_of_lt_mul (by rw [← hn]; exact hq)
  have hrb : r / b < c := Nat.div_lt_of_lt_mul (by rw [← hn]; exact hr)
  have h5 : q / b = r / b := Nat.ModEq.eq_of_lt_of_lt h4 hqb hrb
  rw [h5] at h1
  have h6 : q * m ≡ r * m [MOD n] := Nat.ModEq.add_left_cancel' _ h1
  have h7 : q * a ≡ r * a [MOD b] := by
    rw [hm, hn, ← Nat.mul_assoc, ← Nat.mul_assoc] at h6
    exact Nat.ModEq.mul_right_cancel' (by omega) h6
  have h8 : q ≡ r [MOD b] := Nat.ModEq.cancel_right_of_coprime (by
    rw [Nat.gcd_comm]; exact hab) h7
  have h9 : q % b = r % b := h8
  rw [← Nat.div_add_mod q b, ← Nat.div_add_mod r b, h5, h9]

/-- entries of a scratch list -/
def LIs (t : List K) (n : Nat) (g : Nat → K) : Prop := ∀ i, i < n → t[i]? = some (g i)

theorem gatherLoop_is {A : Mat K} {m n : Nat} {f} (hA : A.Is m n f) {rho : Nat → Option Nat}
    {ρ : Nat → Nat} {j : Nat} (hj : j < n) (hρ : ∀ i, i < m → rho i = some (ρ i) ∧ ρ i < m)
    (t : List K) (ht : m ≤ t.length) :
    ∃ t', gatherLoop A rho j t = some t' ∧ t'.length = t.length ∧
      LIs t' m (fun i => f (ρ i) j) := by
  have := forRange_inv (a := 0) (b := m) (s := t) (f := fun t i => do
    let r ← rho i
    let v ← A.get r j
    tset t i v)
    (fun k t' => t'.length = t.length ∧ LIs t' k (fun i => f (ρ i) j)) (by omega)
    ⟨rfl, by intro i hi; omega⟩ (by
      intro i t' _ hi ⟨h1, h2⟩
      obtain ⟨e1, e2⟩ := hρ i hi
      have hlt : i < t'.length := by omega
      refine ⟨t'.set i (f (ρ i) j), ?_, by simp [h1], ?_⟩
      · simp [e1, hA.get e2 hj, tset, hlt]
      · intro k hk
        rw [List.getElem?_set]
        by_cases e : i = k
        · subst e; simp [hlt]
        · simp only [e, if_false]
          exact h2 k (by omega))
  simpa [gatherLoop, hA.hm] using this

theorem writeCol_is {A : Mat K} {m n : Nat} {f} (hA : A.Is m n f) {j : Nat} (hj : j < n)
    {t : List K} {g : Nat → K} (ht : LIs t m g) :
    ∃ B, writeCol A j t = some B ∧ B.Is m n (fun a b => if b = j then g a else f a b) := by
  have := forRange_inv (a := 0) (b := m) (s := A) (f := fun A i => do
    let v ← t[i]?
    A.set i j v)
    (fun k B => B.Is m n (fun a b => if b = j ∧ a < k then g a else f a b)) (by omega)
    (by simpa using hA) (by
      intro i B _ hi hB
      refine ⟨B.put i j (g i), ?_, ?_⟩
      · simp [ht i hi, hB.set hi hj]
      · refine (hB.put hi hj _).congr ?_
        intro a b ha hb
        by_cases e : a = i ∧ b = j
        · obtain ⟨rfl, rfl⟩ := e; simp
        · rw [upd_ne _ _ e]
          have : (b = j ∧ a < i) ↔ (b = j ∧ a < i + 1) := by omega
          simp only [this])
  obtain ⟨B, h1, h2⟩ := this
  refine ⟨B, by simpa [writeCol, hA.hm] using h1, h2.congr ?_⟩
  intro i j hi hj; simp [hi]

theorem writeRow_is {A : Mat K} {m n : Nat} {f} (hA : A.Is m n f) {i : Nat} (hi : i < m)
    {t : List K} {g : Nat → K} (ht : LIs t n g) :
    ∃ B, writeRow A i t = some B ∧ B.Is m n (fun a b => if a = i then g b else f a b) := by
  have := forRange_inv (a := 0) (b := n) (s := A) (f := fun A j => do
    let v ← t[j]?
    A.set i j v)
    (fun k B => B.Is m n (fun a b => if a = i ∧ b < k then g b else f a b)) (by omega)
    (by simpa using hA) (by
      intro j B _ hj hB
      refine ⟨B.put i j (g j), ?_, ?_⟩
      · simp [ht j hj, hB.set hi hj]
      · refine (hB.put hi hj _).congr ?_
        intro a b ha hb
        by_cases e : a = i ∧ b = j
        · obtain ⟨rfl, rfl⟩ := e; simp
        · rw [upd_ne _ _ e]
          have : (a = i ∧ b < j) ↔ (a = i ∧ b < j + 1) := by omega
          simp only [this])
  obtain ⟨B, h1, h2⟩ := this
  refine ⟨B, by simpa [writeRow, hA.hn] using h1, h2.congr ?_⟩
  intro i j hi hj; simp [hj]

theorem scatterLoop_is {A : Mat K} {m n c a b : Nat} {f} (hA : A.Is m n f) {i : Nat} (hi : i < m)
    (hc : 0 < c) (hm : m = a * c) (hn : n = b * c) (hab : Nat.Coprime a b)
    (t : List K) (ht : n ≤ t.length) :
    ∃ t', scatterLoop A b i t = some t' ∧ t'.length = t.length ∧
      ∀ j, j < n → t'[scatterDa m n i j b]? = some (f i j) := by
  have := forRange_inv (a := 0) (b := n) (s := t) (f := fun t j => do
    let v ← A.get i j
    tset t (scatterDa m n i j b) v)
    (fun k t' => t'.length = t.length ∧ ∀ j, j < k → t'[scatterDa m n i j b]? = some (f i j))
    (by omega)
    ⟨rfl, by intro i hi; omega⟩ (by
      intro j t' _ hj ⟨h1, h2⟩
      have hlt : scatterDa m n i j b < t'.length := by
        have : scatterDa m n i j b < n := Nat.mod_lt _ (by omega)
        omega
      refine ⟨t'.set (scatterDa m n i j b) (f i j), ?_, by simp [h1], ?_⟩
      · simp [hA.get hi hj, tset, hlt]
      · intro k hk
        rw [List.getElem?_set]
        by_cases e : scatterDa m n i j b = scatterDa m n i k b
        · have := scatter_inj hc hm hn hab hj (by omega) e
          subst this; simp [hlt]
        · simp only [e, if_false]
          refine h2 k ?_
          have : k ≠ j := fun h => e (by rw [h])
          omega)
  simpa [scatterLoop, hA.hm, hA.hn] using this

/-- inverse of the column scatter -/
theorem scatter_surj {m n c a b s : Nat} (hc : 0 < c) (hm : m = a * c) (hn : n = b * c)
    (hab : Nat.Coprime a b) {j : Nat} (hj : j < n) :
    ∃ q, q < n ∧ scatterDa m n s q b = j := by
  have hlt : ∀ q : Nat, scatterDa m n s q b < n := fun q => Nat.mod_lt _ (by omega)
  let F : Fin n → Fin n := fun q => ⟨scatterDa m n s q b, hlt q⟩
  have hF : Function.Injective F := by
    intro q r h
    have : scatterDa m n s q b = scatterDa m n s r b := by simpa [F] using h
    exact Fin.ext (scatter_inj hc hm hn hab q.2 r.2 this)
  obtain ⟨q, hq⟩ := (Finite.injective_iff_surjective.1 hF) ⟨j, hj⟩
  exact ⟨q, q.2, by simpa [F] using hq⟩

/-- The effect of the three passes: buffer position `j*m+i` ends up with the old buffer
    position `i*n+j`. -/
theorem transposeWith_data (junk : Nat → K) {A : Mat K} {m n : Nat} {f} (hA : A.Is m n f)
    (h0 : 0 < m ∨ 0 < n) :
    ∃ B, A.transposeWith junk = some ⟨n, m, B⟩ ∧ B.length = m * n ∧
      ∀ i j, i < m → j < n → B[j * m + i]? = some (f ((i * n + j) % m) ((i * n + j) / m)) := by
  set c := Nat.gcd m n with hcdef
  have hc : 0 < c := by
    rcases h0 with h | h
    · exact Nat.gcd_pos_of_pos_left _ h
    · exact Nat.gcd_pos_of_pos_right _ h
  set a := m / c with hadef
  set b := n / c with hbdef
  have hm : m = a * c := (Nat.div_mul_cancel (Nat.gcd_dvd_left m n)).symm
  have hn : n = b * c := (Nat.div_mul_cancel (Nat.gcd_dvd_right m n)).symm
  have hab : Nat.Coprime a b := Nat.coprime_div_gcd_div_gcd hc
  set temp : List K := (List.range (max m n)).map junk with htemp
  have htl : temp.length = max m n := by simp [htemp]
  -- pass 1
  have P1 : ∃ s : Mat K × List K, pass1 c b (A, temp) = some s ∧ s.2.length = max m n ∧
      s.1.Is m n (fun i j => f ((i + j / b) % m) j) := by
    unfold pass1
    by_cases h1 : c > 1
    · rw [if_pos h1]
      have := forRange_inv (a := 0) (b := n) (s := (A, temp))
        (f := fun (s : Mat K × List K) j => do
        let t ← gatherLoop s.1 (fun i => some (gather s.1.m i j b)) j s.2
        let A ← writeCol s.1 j t
        some (A, t))
        (fun k s => s.2.length = max m n ∧
          s.1.Is m n (fun i j => if j < k then f ((i + j / b) % m) j else f i j)) (by omega)
        ⟨htl, by simpa using hA⟩ (by
          intro j s _ hj ⟨hs1, hs2⟩
          obtain ⟨t, ht1, ht2, ht3⟩ := gatherLoop_is hs2 (j := j) hj
            (rho := fun i => some (gather m i j b)) (ρ := fun i => gather m i j b)
            (fun i hi => ⟨rfl, Nat.mod_lt _ (by omega)⟩) s.2 (by omega)
          obtain ⟨B, hB1, hB2⟩ := writeCol_is hs2 hj ht3
          refine ⟨(B, t), ?_, by simp only; omega, hB2.congr ?_⟩
          · simp [hs2.hm, ht1, hB1]
          · intro i k hi hk
            by_cases e : k = j
            · subst e; simp [gather]
            · have : k < j ↔ k < j + 1 := by omega
              simp only [e, if_false, this])
      obtain ⟨s, hs1, hs2, hs3⟩ := this
      refine ⟨s, by rw [hA.hn]; exact hs1, hs2, hs3.congr ?_⟩
      intro i j hi hj; simp [hj]
    · rw [if_neg h1]
      refine ⟨_, rfl, htl, hA.congr ?_⟩
      intro i j hi hj
      have hc1 : c = 1 := by omega
      have hb : b = n := by rw [hn, hc1]; simp
      rw [hb, Nat.div_eq_of_lt hj, Nat.add_zero, Nat.mod_eq_of_lt hi]
  obtain ⟨s1, hs1, hs1l, hs1is⟩ := P1
  -- pass 2
  have P2 : ∃ s : Mat K × List K, pass2 b s1 = some s ∧ s.2.length = max m n ∧
      ∃ g, s.1.Is m n g ∧ ∀ i j, i < m → j < n →
        g i (scatterDa m n i j b) = f ((i + j / b) % m) j := by
    have := forRange_inv (a := 0) (b := m) (s := s1) (f := fun (s : Mat K × List K) i => do
      let t ← scatterLoop s.1 b i s.2
      let A ← writeRow s.1 i t
      some (A, t))
      (fun k s => s.2.length = max m n ∧ ∃ g, s.1.Is m n g ∧
        (∀ i j, i < k → j < n → g i (scatterDa m n i j b) = f ((i + j / b) % m) j) ∧
        (∀ i j, k ≤ i → i < m → j < n → g i j = f ((i + j / b) % m) j)) (by omega)
      ⟨hs1l, _, hs1is, by intro i j hi; omega, by intros; rfl⟩ (by
        intro i s _ hi ⟨hl, g, hg, hg1, hg2⟩
        obtain ⟨t, ht1, ht2, ht3⟩ := scatterLoop_is hg hi hc hm hn hab s.2 (by omega)
        have ht4 : LIs t n (fun j => if h : j < n then
            f ((i + (scatter_surj (s := i) hc hm hn hab h).choose / b) % m)
              (scatter_surj (s := i) hc hm hn hab h).choose else f 0 0) := by
          intro j hj
          obtain ⟨q1, q2⟩ := (scatter_surj (s := i) hc hm hn hab hj).choose_spec
          simp only [hj, dif_pos]
          have := ht3 _ q1
          rw [q2, hg2 i _ (le_refl _) hi q1] at this
          exact this
        obtain ⟨B, hB1, hB2⟩ := writeRow_is hg hi ht4
        refine ⟨(B, t), ?_, by simp only; omega, _, hB2, ?_, ?_⟩
        · simp [ht1, hB1]
        · intro k j hk hj
          have hlt : scatterDa m n k j b < n := Nat.mod_lt _ (by omega)
          by_cases e : k = i
          · subst e
            simp only [if_true, hlt, dif_pos]
            obtain ⟨q1, q2⟩ := (scatter_surj (s := k) hc hm hn hab hlt).choose_spec
            rw [scatter_inj hc hm hn hab q1 hj q2]
          · simp only [e, if_false]
            exact hg1 k j (by omega) hj
        · intro k j hk hk2 hj
          have e : k ≠ i := by omega
          simp only [e, if_false]
          exact hg2 k j (by omega) hk2 hj)
    obtain ⟨s, h1, h2, g, h3, h4, _⟩ := this
    unfold pass2
    rw [hs1is.hm]
    exact ⟨s, h1, h2, g, h3, h4⟩
  obtain ⟨s2, hs2, hs2l, g, hs2is, hg⟩ := P2
  -- pass 3
  have P3 : ∃ s : Mat K × List K, pass3 a s2 = some s ∧
      s.1.Is m n (fun i j => g ((j + i * n - i / a) % m) j) := by
    have := forRange_inv (a := 0) (b := n) (s := s2)
      (f := fun (s : Mat K × List K) j => do
      let t ← gatherLoop s.1 (fun i => gatherSa s.1.m s.1.n i j a) j s.2
      let A ← writeCol s.1 j t
      some (A, t))
      (fun k s => s.2.length = max m n ∧
        s.1.Is m n (fun i j => if j < k then g ((j + i * n - i / a) % m) j else g i j)) (by omega)
      ⟨hs2l, by simpa using hs2is⟩ (by
        intro j s _ hj ⟨hs1, hs2⟩
        obtain ⟨t, ht1, ht2, ht3⟩ := gatherLoop_is hs2 (j := j) hj
          (rho := fun i => gatherSa m n i j a) (ρ := fun i => (j + i * n - i / a) % m)
          (fun i hi => ⟨gatherSa_some (by omega), Nat.mod_lt _ (by omega)⟩)
          s.2 (by omega)
        obtain ⟨B, hB1, hB2⟩ := writeCol_is hs2 hj ht3
        refine ⟨(B, t), ?_, by simp only; omega, hB2.congr ?_⟩
        · simp [hs2.hm, hs2.hn, ht1, hB1]
        · intro i k hi hk
          by_cases e : k = j
          · subst e; simp
          · have : k < j ↔ k < j + 1 := by omega
            simp only [e, if_false, this])
    obtain ⟨s, hs1, hs2, hs3⟩ := this
    refine ⟨s, by unfold pass3; rw [hs2is.hn]; exact hs1, hs3.congr ?_⟩
    intro i j hi hj; simp [hj]
  obtain ⟨s3, hs3, hs3is⟩ := P3
  refine ⟨s3.1.data, ?_, hs3is.hlen, ?_⟩
  · unfold transposeWith
    simp only [hA.hm, hA.hn, gcd_eq]
    rw [← hcdef, if_neg (by omega), ← hadef, ← hbdef, ← htemp]
    simp [hs1, hs2, hs3, hs3is.hm, hs3is.hn]
  · intro i j hi hj
    rw [hs3is.hget i j hi hj]
    have hn0 : 0 < n := by omega
    have hm0 : 0 < m := by omega
    have hq : (i * n + j) / m < n := Nat.div_lt_of_lt_mul (by
      have := idx_lt hj hi; rwa [Nat.mul_comm m])
    have h1 := hg ((j + i * n - i / a) % m) ((i * n + j) / m) (Nat.mod_lt _ hm0) hq
    rw [core_scatter hm hn hn0 hj, core_row hm hn hn0 hj] at h1
    rw [h1]

/-- linear form: `out[(L % n) * m + L / n] = in[L]` -/
theorem transposeWith_linear (junk : Nat → K) {A : Mat K} (hlen : A.data.length = A.m * A.n)
    (h0 : 0 < A.m ∨ 0 < A.n) :
    ∃ B, A.transposeWith junk = some ⟨A.n, A.m, B⟩ ∧ B.length = A.m * A.n ∧
      ∀ i j, i < A.m → j < A.n → B[j * A.m + i]? = A.data[i * A.n + j]? := by
  classical
  by_cases hK : Nonempty K
  · have : Inhabited K := ⟨hK.some⟩
    obtain ⟨f, hf⟩ := exists_is hlen
    obtain ⟨B, h1, h2, h3⟩ := transposeWith_data junk hf h0
    refine ⟨B, h1, h2, ?_⟩
    intro i j hi hj
    rw [h3 i j hi hj]
    have hm0 : 0 < A.m := by omega
    have hL := idx_lt hj hi
    have := hf.hget _ _ (Nat.mod_lt (i * A.n + j) hm0)
      (show (i * A.n + j) / A.m < A.n from Nat.div_lt_of_lt_mul (by
        rwa [Nat.mul_comm A.m]))
    rw [Nat.div_add_mod'] at this
    exact this.symm
  · have hz : A.data = [] := by
      cases h : A.data with
      | nil => rfl
      | cons x _ => exact absurd ⟨x⟩ hK
    have : A.m * A.n = 0 := by rw [← hlen, hz]; rfl
    exact absurd ⟨junk 0⟩ hK

/-- The uninitialised scratch buffer does not influence the result. -/
theorem transposeWith_junk (j1 j2 : Nat → K) {A : Mat K} (hlen : A.data.length = A.m * A.n) :
    A.transposeWith j1 = A.transposeWith j2 := by
  by_cases h0 : 0 < A.m ∨ 0 < A.n
  · obtain ⟨B1, h1, h2, h3⟩ := transposeWith_linear j1 hlen h0
    obtain ⟨B2, k1, k2, k3⟩ := transposeWith_linear j2 hlen h0
    rw [h1, k1]
    congr 2
    have : Inhabited K := ⟨j1 0⟩
    have i1 : (⟨A.m, A.n, B1⟩ : Mat K).Is A.m A.n _ := (exists_is (by simpa using h2)).choose_spec
    have i2 : (⟨A.m, A.n, B2⟩ : Mat K).Is A.m A.n _ := (exists_is (by simpa using k2)).choose_spec
    have := i1.ext i2 (by
      intro i j hi hj
      have e1 := i1.hget i j hi hj
      have e2 := i2.hget i j hi hj
      simp only at e1 e2
      rw [h3 i j hi hj] at e1
      rw [k3 i j hi hj, e1] at e2
      exact Option.some.inj e2)
    simpa using this
  · have hm : A.m = 0 := by omega
    have hn : A.n = 0 := by omega
    simp [transposeWith, hm, hn, gcd]

/-- square, row and column shapes are transposed correctly -/
theorem transposeWith_is (junk : Nat → K) {A : Mat K} {m n : Nat} {f} (hA : A.Is m n f)
    (h : m = n ∨ m = 1 ∨ n = 1) (h0 : 0 < m ∨ 0 < n) :
    ∃ B, A.transposeWith junk = some B ∧ B.Is n m (fun i j => f j i) := by
  obtain ⟨B, h1, h2, h3⟩ := transposeWith_data junk hA h0
  refine ⟨_, h1, rfl, rfl, by simp [h2, Nat.mul_comm], ?_⟩
  intro i j hi hj
  simp only
  rcases h with rfl | rfl | rfl
  · rw [h3 i j hi hj]
    have e1 : (i * m + j) % m = j := by
      rw [Nat.add_comm, Nat.add_mul_mod_self_right]; exact Nat.mod_eq_of_lt hj
    have e2 : (i * m + j) / m = i := by
      rw [Nat.add_comm, Nat.add_mul_div_right _ _ (by omega), Nat.div_eq_of_lt hj]; simp
    rw [e1, e2]
  · have : j = 0 := by omega
    subst this
    have := h3 0 i (by omega) hi
    simpa [Nat.mod_one] using this
  · have : i = 0 := by omega
    subst this
    have := h3 j 0 hj (by omega)
    simpa [Nat.mod_eq_of_lt hj, Nat.div_eq_of_lt hj] using this

end Mat
end Verif
