import Verif.LapackModel
import Verif.LUProps

/-!
# Helper lemmas for the BLAS/LAPACK backend
-/

namespace Verif
namespace Lapack
open Finset

variable {K : Type}

theorem getD_lt {α : Type} (l : List α) (d : α) {i : Nat} (h : i < l.length) : l.getD i d = l[i] := by
  simp [List.getD_eq_getElem?_getD, h]

theorem el_of_is [Zero K] {A : Mat K} {m n : Nat} {f : Nat → Nat → K} (h : A.Is m n f) {i j : Nat} (hi : i < m) (hj : j < n) :
    el A.data m i j = f i j := by
  simp [el, List.getD_eq_getElem?_getD, h.hget i j hi hj]

theorem is_of_el [Zero K] {d : List K} {m n : Nat} {f : Nat → Nat → K} (hl : d.length = m * n)
    (h : ∀ i < m, ∀ j < n, el d m i j = f i j) : (⟨m, n, d⟩ : Mat K).Is m n f := by
  refine ⟨rfl, rfl, hl, fun i j hi hj => ?_⟩
  have hlt : j * m + i < d.length := by rw [hl]; exact idx_lt hi hj
  have := h i hi j hj
  rw [el, getD_lt _ _ hlt] at this
  rw [List.getElem?_eq_getElem hlt, this]

theorem new_of_len {d : List K} {m n : Nat} (hl : d.length = m * n) : Mat.new m n d = some ⟨m, n, d⟩ := by
  simp [Mat.new, hl]

/-- a loop that writes one value into a part of every row -/
theorem setLoop {A : Mat K} {m n : Nat} {f : Nat → Nat → K} (hA : A.Is m n f) (a : Nat) (lo hi : Nat → Nat)
    (hh : ∀ i, i < m → hi i ≤ n) (v : K) :
    ∃ C, forRange a m (fun A' i => forRange (lo i) (hi i) (fun (A' : Mat K) k => A'.set i k v) A') A = some C ∧
      C.Is m n (fun i k => if a ≤ i ∧ lo i ≤ k ∧ k < hi i then v else f i k) := by
  by_cases ham : a ≤ m
  · obtain ⟨C, h1, h2⟩ := forRange_inv (a := a) (b := m) (s := A)
      (f := fun A' i => forRange (lo i) (hi i) (fun (A' : Mat K) k => A'.set i k v) A')
      (fun r C => C.Is m n (fun i k => if a ≤ i ∧ i < r ∧ lo i ≤ k ∧ k < hi i then v else f i k)) ham
      (hA.congr fun i j _ _ => by rw [if_neg (by omega)]) (by
        intro i B h1 h2 hB
        by_cases hl : lo i ≤ hi i
        · obtain ⟨C, e1, e2⟩ := forRange_inv (a := lo i) (b := hi i) (s := B)
            (f := fun (A' : Mat K) k => A'.set i k v)
            (fun c C => C.Is m n (fun r k => if a ≤ r ∧ (r < i ∧ lo r ≤ k ∧ k < hi r ∨ r = i ∧ lo i ≤ k ∧ k < c) then v
              else f r k)) hl
            (hB.congr fun r j _ _ => if_congr (by omega) rfl rfl) (by
              intro k C hk1 hk2 hC
              have hkn : k < n := by have := hh i h2; omega
              refine ⟨_, hC.set h2 hkn v, (hC.put h2 hkn v).congr fun r j _ _ => ?_⟩
              by_cases e : r = i ∧ j = k
              · obtain ⟨rfl, rfl⟩ := e
                rw [upd_same, if_pos (by omega)]
              · rw [upd_ne _ _ e]
                exact if_congr (by omega) rfl rfl)
          refine ⟨C, e1, e2.congr fun r j _ _ => if_congr ?_ rfl rfl⟩
          constructor
          · rintro ⟨p, q | ⟨rfl, q⟩⟩
            · omega
            · omega
          · rintro ⟨p, q, t⟩
            by_cases e : r = i
            · subst e; omega
            · omega
        · refine ⟨B, forRange_empty (by omega) _ _, hB.congr fun r j _ _ => if_congr ?_ rfl rfl⟩
          constructor
          · omega
          · rintro ⟨p, q, t⟩
            by_cases e : r = i
            · subst e; omega
            · omega)
    exact ⟨C, h1, h2.congr fun i j hi _ => if_congr (by omega) rfl rfl⟩
  · refine ⟨A, forRange_empty (by omega) _ _, hA.congr fun i j hi _ => by rw [if_neg (by omega)]⟩

/-- a loop that writes one value into position `g i` of every row `i` -/
theorem diagLoop {A : Mat K} {n : Nat} {f : Nat → Nat → K} (hA : A.Is n n f) (g : Nat → Nat) (hg : ∀ i < n, g i < n) (v : K)
    (F : Mat K → Nat → Option (Mat K)) (hF : ∀ B i, i < n → F B i = B.set i (g i) v) :
    ∃ C, forRange 0 n F A = some C ∧ C.Is n n (fun i k => if k = g i then v else f i k) := by
  obtain ⟨C, h1, h2⟩ := forRange_inv (a := 0) (b := n) (s := A) (f := F)
    (fun r C => C.Is n n (fun i k => if i < r ∧ k = g i then v else f i k)) (by omega)
    (hA.congr fun i j _ _ => by rw [if_neg (by omega)]) (by
      intro i B _ h2 hB
      refine ⟨_, (hF B i h2).trans (hB.set h2 (hg i h2) v), (hB.put h2 (hg i h2) v).congr fun r j _ _ => ?_⟩
      by_cases e : r = i ∧ j = g i
      · obtain ⟨rfl, rfl⟩ := e
        rw [upd_same, if_pos ⟨by omega, rfl⟩]
      · rw [upd_ne _ _ e]
        refine if_congr ⟨fun h => ⟨by omega, h.2⟩, fun h => ⟨?_, h.2⟩⟩ rfl rfl
        by_contra hc
        have : r = i := by omega
        subst this
        exact e ⟨rfl, h.2⟩)
  exact ⟨C, h1, h2.congr fun i j hi _ => if_congr (by simp [hi]) rfl rfl⟩

/-! ### permutations -/

theorem pivPerm_succ (p : List ℤ) (k : Nat) :
    pivPerm p (k + 1) = pivPerm p k * Equiv.swap k ((p.getD k 0).toNat - 1) := by
  simp [pivPerm, List.range_succ]

/-- the interchanges permute the rows of an `n × n` matrix -/
theorem pivPerm_fin {n : Nat} {p : List ℤ} (k : Nat) (hk : k ≤ n)
    (hp : ∀ i < k, (i : ℤ) + 1 ≤ p.getD i 0 ∧ p.getD i 0 ≤ n) :
    ∃ σ : Equiv.Perm (Fin n), ∀ i : Fin n, pivPerm p k i = σ i := by
  induction k with
  | zero => exact ⟨1, fun i => by simp [pivPerm]⟩
  | succ k ih =>
    obtain ⟨σ, hσ⟩ := ih (by omega) (fun i hi => hp i (by omega))
    obtain ⟨h1, h2⟩ := hp k (by omega)
    have hq : (p.getD k 0).toNat - 1 < n := by omega
    refine ⟨σ * Equiv.swap ⟨k, by omega⟩ ⟨_, hq⟩, fun i => ?_⟩
    rw [pivPerm_succ, Equiv.Perm.mul_apply, Equiv.Perm.mul_apply, ← hσ]
    congr 1
    by_cases e1 : (i : ℕ) = k
    · have : i = ⟨k, by omega⟩ := Fin.ext e1
      rw [this, Equiv.swap_apply_left]
      simp
    · by_cases e2 : (i : ℕ) = (p.getD k 0).toNat - 1
      · have : i = ⟨_, hq⟩ := Fin.ext e2
        rw [this, Equiv.swap_apply_right]
        simp
      · rw [Equiv.swap_apply_of_ne_of_ne e1 e2, Equiv.swap_apply_of_ne_of_ne (fun h => e1 (by rw [h]))
          (fun h => e2 (by rw [h]))]

/-- the last interchange does nothing -/
theorem pivPerm_last {n : Nat} (hn : n ≠ 0) {p : List ℤ} (hp : ∀ i < n, (i : ℤ) + 1 ≤ p.getD i 0 ∧ p.getD i 0 ≤ n) :
    pivPerm p (n - 1) = pivPerm p n := by
  obtain ⟨k, rfl⟩ : ∃ k, n = k + 1 := ⟨n - 1, by omega⟩
  obtain ⟨h1, h2⟩ := hp k (by omega)
  rw [pivPerm_succ, show (p.getD k 0).toNat - 1 = k by omega, Equiv.swap_self]
  rfl

section Field
variable [Field K]

theorem luL_is {A : Mat K} {n : Nat} {f : Nat → Nat → K} (hA : A.Is n n f) :
    ∃ C, luL A = some C ∧ C.Is n n (fun i k => if k < i then f i k else if k = i then 1 else 0) := by
  obtain ⟨B, h1, h2⟩ := setLoop hA 0 (fun i => i) (fun _ => n) (fun _ _ => le_rfl) 0
  obtain ⟨C, h3, h4⟩ := diagLoop h2 (fun i => i) (fun _ h => h) 1 (fun (A' : Mat K) i => A'.set i i 1) (fun _ _ _ => rfl)
  refine ⟨C, ?_, h4.congr fun i k hi hk => ?_⟩
  · simp only [luL, hA.hm, hA.hn, Option.bind_eq_bind]
    rw [h1, Option.bind_some, h3]
  · rcases lt_trichotomy k i with h | h | h
    · rw [if_neg (by omega), if_neg (by omega), if_pos h]
    · rw [if_pos h, if_neg (by omega), if_pos h]
    · rw [if_neg (by omega), if_pos (by omega), if_neg (by omega), if_neg (by omega)]

theorem luU_is {A : Mat K} {n : Nat} {f : Nat → Nat → K} (hA : A.Is n n f) :
    ∃ C, luU A = some C ∧ C.Is n n (fun i k => if i ≤ k then f i k else 0) := by
  obtain ⟨C, h1, h2⟩ := setLoop hA 0 (fun _ => 0) (fun i => i) (fun _ h => h.le) 0
  refine ⟨C, by simp only [luU, hA.hm]; exact h1, h2.congr fun i k _ _ => ?_⟩
  by_cases h : i ≤ k
  · rw [if_neg (by omega), if_pos h]
  · rw [if_pos (by omega), if_neg h]

theorem luP_is {n : Nat} (hn : n ≠ 0) {p : List ℤ} (hl : p.length = n)
    (hp : ∀ i < n, (i : ℤ) + 1 ≤ p.getD i 0 ∧ p.getD i 0 ≤ n) {σ : Equiv.Perm (Fin n)}
    (hσ : ∀ i : Fin n, pivPerm p n i = σ i) :
    ∃ C, luP (K := K) p = some C ∧ Repr C (σ.permMatrix K) := by
  obtain ⟨perm, h1, h2, h3⟩ := forRange_inv (a := 0) (b := n - 1) (s := List.range n)
    (f := fun (perm : List Nat) i => do
      let q ← p[i]?
      if q < 1 then none else do
        let temp ← perm[(q - 1).toNat]?
        let x ← perm[i]?
        some ((perm.set (q - 1).toNat x).set i temp))
    (fun k perm => perm.length = n ∧ ∀ i < n, perm[i]? = some (pivPerm p k i)) (by omega)
    ⟨by simp, fun i hi => by simp [hi, pivPerm]⟩ (by
      intro i perm _ hi ⟨e1, e2⟩
      obtain ⟨q1, q2⟩ := hp i (by omega)
      have hpi : p[i]? = some (p.getD i 0) := by
        rw [List.getElem?_eq_getElem (by omega), getD_lt _ _ (by omega)]
      have hq : (p.getD i 0 - 1).toNat < n := by omega
      have hqe : (p.getD i 0 - 1).toNat = (p.getD i 0).toNat - 1 := by omega
      refine ⟨(perm.set (p.getD i 0 - 1).toNat (pivPerm p i i)).set i (pivPerm p i (p.getD i 0 - 1).toNat), ?_, ?_, ?_⟩
      · simp only [hpi, Option.bind_eq_bind, Option.bind_some]
        rw [if_neg (by omega), e2 _ hq, e2 i (by omega)]
        rfl
      · simp [e1]
      · intro r hr
        rw [pivPerm_succ, Equiv.Perm.mul_apply, ← hqe, List.getElem?_set, List.length_set, e1]
        by_cases er : i = r
        · subst er
          rw [if_pos rfl, if_pos hr, Equiv.swap_apply_left]
        · rw [if_neg er, List.getElem?_set, e1]
          by_cases es : (p.getD i 0 - 1).toNat = r
          · rw [if_pos es, if_pos hq, ← es, Equiv.swap_apply_right]
          · rw [if_neg es, e2 r hr, Equiv.swap_apply_of_ne_of_ne (Ne.symm er) (Ne.symm es)])
  have h3' : ∀ i < n, perm[i]? = some (extV (fun i => (σ i : ℕ)) i) := by
    intro i hi
    rw [h3 i hi, pivPerm_last hn hp, hσ ⟨i, hi⟩, extV_lt _ hi]
  obtain ⟨C, h4, h5⟩ := diagLoop (Mat.zero_is (K := K) n n) (fun i => extV (fun i => (σ i : ℕ)) i) (fun i hi => by
      rw [extV_lt _ hi]; exact (σ _).2) 1 (fun (p : Mat K) i => do
      let k ← perm[i]?
      p.set i k 1) (fun B i hi => by simp only [h3' i hi, Option.bind_eq_bind, Option.bind_some])
  refine ⟨C, ?_, h5.repr_of fun i j => ?_⟩
  · simp only [luP, hl, if_neg hn]
    rw [h1]
    exact h4
  · simp only [Equiv.Perm.permMatrix, PEquiv.toMatrix_apply, Equiv.toPEquiv_apply, Option.mem_some_iff, extV_apply]
    exact if_congr ⟨fun h => Fin.ext h.symm, fun h => by rw [← h]⟩ rfl rfl

end Field

end Lapack
end Verif
