import Verif.DisplayModel
import Verif.MatLemmas

/-!
# C104: texts determine the values

What is printed can be read back, for numbers whose texts are different, not empty and free of the characters that
separate them (as those of finite floating-point numbers, which consist of digits, a point and a minus sign).
-/

namespace Verif
namespace Display

variable {K : Type}

/-- the texts of numbers can be told apart and contain no separators -/
structure Readable (sh : K → List Char) : Prop where
  /-- different numbers have different texts -/
  inj : Function.Injective sh
  /-- no text is empty -/
  ne : ∀ x, sh x ≠ []
  /-- separators do not occur -/
  sep : ∀ x, ∀ c ∈ [' ', '\n', 'x', 'i'], c ∉ sh x

/-! ### Splitting texts -/

/-- a text is determined up to the first separator -/
theorem split_at {c : Char} {s s' r r' : List Char} (hs : c ∉ s) (hs' : c ∉ s') (hr : r = [] ∨ ∃ t, r = c :: t)
    (hr' : r' = [] ∨ ∃ t, r' = c :: t) (h : s ++ r = s' ++ r') : s = s' ∧ r = r' := by
  induction s generalizing s' with
  | nil =>
    cases s' with
    | nil => exact ⟨rfl, h⟩
    | cons d s' =>
      rcases hr with rfl | ⟨t, rfl⟩
      · simp at h
      · simp only [List.nil_append, List.cons_append, List.cons.injEq] at h
        exact absurd (by simp [h.1]) hs'
  | cons d s ih =>
    cases s' with
    | nil =>
      rcases hr' with rfl | ⟨t, rfl⟩
      · simp at h
      · simp only [List.nil_append, List.cons_append, List.cons.injEq] at h
        exact absurd (by simp [h.1]) hs
    | cons d' s' =>
      simp only [List.cons_append, List.cons.injEq] at h
      obtain ⟨h1, h2⟩ := ih (fun hc => hs (List.mem_cons_of_mem _ hc)) (fun hc => hs' (List.mem_cons_of_mem _ hc)) h.2
      exact ⟨by rw [h.1, h1], h2⟩

/-- texts that end with a separator -/
theorem terminated_inj {c : Char} {l l' : List (List Char)} (hl : ∀ s ∈ l, c ∉ s) (hl' : ∀ s ∈ l', c ∉ s)
    (h : l.flatMap (fun s => s ++ [c]) = l'.flatMap (fun s => s ++ [c])) : l = l' := by
  induction l generalizing l' with
  | nil =>
    cases l' with
    | nil => rfl
    | cons s l' => simp at h
  | cons s l ih =>
    cases l' with
    | nil => simp at h
    | cons s' l' =>
      simp only [List.flatMap_cons, List.append_assoc, List.singleton_append] at h
      obtain ⟨h1, h2⟩ := split_at (hl s (by simp)) (hl' s' (by simp)) (Or.inr ⟨_, rfl⟩) (Or.inr ⟨_, rfl⟩) h
      rw [h1, ih (fun t ht => hl t (by simp [ht])) (fun t ht => hl' t (by simp [ht])) (List.cons.inj h2).2]

/-! ### Matrices -/

/-- **C104**, matrices: the text is a line break, the rows, each with a space after every number and a line break at the end,
and a line break. -/
theorem C104_matrix (sh : K → List Char) {A : Mat K} {m n : ℕ} {f : ℕ → ℕ → K} (hA : A.Is m n f) :
    mat sh A = some (['\n'] ++ (List.range m).flatMap (fun i =>
      (List.range n).flatMap (fun j => sh (f i j) ++ [' ']) ++ ['\n']) ++ ['\n']) := by
  have hm : A.m = m := hA.hm
  have hn : A.n = n := hA.hn
  obtain ⟨t, h1, h2⟩ := forRange_inv (a := 0) (b := m) (s := ['\n'])
    (f := fun t i => do
      let t ← forRange 0 n (fun t j => do
        let x ← A.get i j
        some (t ++ (sh x ++ [' ']))) t
      some (t ++ ['\n']))
    (fun k t => t = ['\n'] ++ (List.range k).flatMap (fun i =>
      (List.range n).flatMap (fun j => sh (f i j) ++ [' ']) ++ ['\n'])) (Nat.zero_le _) (by simp) (by
    rintro i t - hi rfl
    obtain ⟨t', h3, h4⟩ := forRange_inv (a := 0) (b := n)
      (s := ['\n'] ++ (List.range i).flatMap (fun i =>
        (List.range n).flatMap (fun j => sh (f i j) ++ [' ']) ++ ['\n']))
      (f := fun t j => do
        let x ← A.get i j
        some (t ++ (sh x ++ [' '])))
      (fun k t => t = (['\n'] ++ (List.range i).flatMap (fun i =>
        (List.range n).flatMap (fun j => sh (f i j) ++ [' ']) ++ ['\n'])) ++
          (List.range k).flatMap (fun j => sh (f i j) ++ [' '])) (Nat.zero_le _) (by simp) (by
      rintro j t - hj rfl
      refine ⟨_, by rw [hA.get hi hj]; rfl, ?_⟩
      rw [List.range_succ, List.flatMap_append]
      simp)
    refine ⟨t' ++ ['\n'], by rw [h3]; rfl, ?_⟩
    rw [h4, List.range_succ, List.flatMap_append]
    simp)
  rw [mat, hm, hn, h1, ← h2]
  rfl

/-- **C104**, matrices: the text determines the matrix, except for the number of columns of a matrix without rows. -/
theorem C104_matrix_inj {sh : K → List Char} (hs : Readable sh) {A B : Mat K} {m n m' n' : ℕ} {f g : ℕ → ℕ → K}
    (hA : A.Is m n f) (hB : B.Is m' n' g) (h : mat sh A = mat sh B) :
    m = m' ∧ (0 < m → n = n') ∧ ∀ i j, i < m → j < n → f i j = g i j := by
  rw [C104_matrix sh hA, C104_matrix sh hB] at h
  have h1 := Option.some.inj h
  simp only [List.append_assoc, List.append_cancel_left_eq, List.append_cancel_right_eq] at h1
  -- a row without its line break
  let row := fun (f : ℕ → ℕ → K) n i => (List.range n).flatMap (fun j => sh (f i j) ++ [' '])
  have hrow : ∀ f n i, '\n' ∉ row f n i := by
    intro f n i hc
    simp only [row, List.mem_flatMap, List.mem_append, List.mem_singleton] at hc
    obtain ⟨j, -, hc | hc⟩ := hc
    · exact hs.sep _ '\n' (by simp) hc
    · exact absurd hc (by decide)
  have h2 : (List.range m).map (row f n) = (List.range m').map (row g n') := by
    refine terminated_inj (c := '\n') ?_ ?_ ?_
    · simp only [List.mem_map]; rintro s ⟨i, -, rfl⟩; exact hrow _ _ _
    · simp only [List.mem_map]; rintro s ⟨i, -, rfl⟩; exact hrow _ _ _
    · simpa only [List.flatMap_map] using h1
  have hm : m = m' := by simpa using congrArg List.length h2
  subst hm
  have h3 : ∀ i, i < m → (List.range n).map (fun j => sh (f i j)) = (List.range n').map (fun j => sh (g i j)) := by
    intro i hi
    have h4 : row f n i = row g n' i := by
      have := congrArg (fun l => l[i]?) h2
      simpa [hi] using this
    refine terminated_inj (c := ' ') ?_ ?_ ?_
    · simp only [List.mem_map]; rintro s ⟨i, -, rfl⟩; exact hs.sep _ ' ' (by simp)
    · simp only [List.mem_map]; rintro s ⟨i, -, rfl⟩; exact hs.sep _ ' ' (by simp)
    · simpa only [List.flatMap_map] using h4
  refine ⟨rfl, fun h0 => by simpa using congrArg List.length (h3 0 h0), fun i j hi hj => ?_⟩
  have hn : n = n' := by simpa using congrArg List.length (h3 i hi)
  subst hn
  have := congrArg (fun l => l[j]?) (h3 i hi)
  simp only [List.getElem?_map, List.getElem?_range hj, Option.map_some, Option.some.injEq] at this
  exact hs.inj this

/-- **C104** is violated by matrices without rows: their texts do not depend on the number of columns. -/
theorem C104_matrix_violated (sh : K → List Char) :
    mat sh (⟨0, 1, []⟩ : Mat K) = mat sh (⟨0, 2, []⟩ : Mat K) ∧ (⟨0, 1, []⟩ : Mat K) ≠ ⟨0, 2, []⟩ := by
  refine ⟨rfl, fun h => ?_⟩
  simp at h

/-! ### Complex numbers -/

/-- **C104**, complex numbers: the text determines the number. -/
theorem C104_complex {sh : K → List Char} (hs : Readable sh) : Function.Injective (cx sh) := by
  rintro ⟨a, b⟩ ⟨c, d⟩ h
  simp only [cx, List.append_assoc, List.cons_append, List.nil_append] at h
  obtain ⟨h1, h2⟩ := split_at (hs.sep a ' ' (by simp)) (hs.sep c ' ' (by simp)) (Or.inr ⟨_, rfl⟩) (Or.inr ⟨_, rfl⟩) h
  simp only [List.cons.injEq, true_and] at h2
  obtain ⟨h3, -⟩ := split_at (hs.sep b 'i' (by simp)) (hs.sep d 'i' (by simp)) (Or.inr ⟨_, rfl⟩) (Or.inr ⟨_, rfl⟩) h2
  rw [hs.inj h1, hs.inj h3]

/-- **C104**, complex numbers: what is before the first space is the real part, what is between the second space and the last
character the imaginary part. -/
theorem C104_complex_parts {sh : K → List Char} (hs : Readable sh) (z : Cx K) :
    (cx sh z).takeWhile (· ≠ ' ') = sh z.re ∧ (((cx sh z).dropWhile (· ≠ ' ')).drop 3).dropLast = sh z.im := by
  have h : ∀ c ∈ sh z.re, decide (c ≠ ' ') = true := by
    intro c hc
    have := hs.sep z.re ' ' (by simp)
    simp only [decide_eq_true_eq]
    rintro rfl
    exact this hc
  constructor
  · rw [cx, List.append_assoc, List.append_assoc, List.takeWhile_append_of_pos h]
    simp
  · rw [cx, List.append_assoc, List.append_assoc, List.dropWhile_append_of_pos h]
    simp

/-! ### Polynomials -/

section Poly
variable [Field K] [LinearOrder K] [IsStrictOrderedRing K]

/-- what follows the coefficient of `x^i` -/
def power : ℕ → List Char
  | 0 => []
  | 1 => ['x']
  | i + 2 => ['x', '^'] ++ Nat.toDigits 10 (i + 2)

/-- a coefficient as it is printed: those within `eps` of 0 count as 0 -/
def cut (eps a : K) : K := if |a| ≤ eps then 0 else a

/-- the terms that are printed, from the index `i` on -/
def kept (eps : K) : List K → ℕ → List (K × ℕ)
  | [], _ => []
  | a :: t, i => if |a| ≤ eps then kept eps t (i + 1) else (a, i) :: kept eps t (i + 1)

theorem polyLoop_false (sh : K → List Char) (eps : K) (p : List K) : ∀ i, 0 < i →
    polyLoop sh eps p i false = (kept eps p i).flatMap (fun t => [' ', '+', ' '] ++ (sh t.1 ++ power t.2)) := by
  induction p with
  | nil => intro i _; rfl
  | cons a p ih =>
    intro i hi
    by_cases h : |a| ≤ eps
    · rw [polyLoop, if_neg (by simpa using h), kept, if_pos h, ih _ (by omega)]
    · rw [polyLoop, if_pos (by simpa using h), kept, if_neg h, List.flatMap_cons, ih _ (by omega)]
      congr 1
      rcases i with _ | _ | i
      · omega
      · simp [power]
      · simp [power]

theorem polyLoop_true (sh : K → List Char) (eps : K) (p : List K) : ∀ i,
    polyLoop sh eps p i true = List.intercalate [' ', '+', ' '] ((kept eps p i).map (fun t => sh t.1 ++ power t.2)) := by
  induction p with
  | nil => intro i; rfl
  | cons a p ih =>
    intro i
    by_cases h : |a| ≤ eps
    · rw [polyLoop, if_neg (by simpa using h), kept, if_pos h, ih]
    · rw [polyLoop, if_pos (by simpa using h), kept, if_neg h, polyLoop_false sh eps p _ (by omega)]
      have e : ∀ (t : List Char) (l : List (K × ℕ)),
          t ++ l.flatMap (fun t => [' ', '+', ' '] ++ (sh t.1 ++ power t.2)) =
            List.intercalate [' ', '+', ' '] (t :: l.map (fun t => sh t.1 ++ power t.2)) := by
        intro t l
        induction l generalizing t with
        | nil => simp [List.intercalate]
        | cons b l ihl =>
          rw [List.map_cons, List.flatMap_cons]
          have := ihl (sh b.1 ++ power b.2)
          simp only [List.intercalate] at this ⊢
          rw [List.intersperse_cons_cons, List.flatten_cons, List.flatten_cons, ← this]
          simp
      rw [List.map_cons, ← e]
      congr 1
      rcases i with _ | _ | i
      · simp [power]
      · simp [power]
      · simp [power]

/-- **C104**, polynomials: the text consists of the terms with a coefficient that is not within `eps` of 0, in ascending order
and separated by ` + `. -/
theorem C104_poly (sh : K → List Char) (eps : K) (p : List K) :
    poly sh eps p = List.intercalate [' ', '+', ' ']
      ((List.range p.length).filterMap fun i =>
        if |p.getD i 0| ≤ eps then none else some (sh (p.getD i 0) ++ power i)) := by
  rw [poly, polyLoop_true]
  congr 1
  have key : ∀ (p : List K) (i : ℕ), (kept eps p i).map (fun t => sh t.1 ++ power t.2) =
      (List.range p.length).filterMap fun j =>
        if |p.getD j 0| ≤ eps then none else some (sh (p.getD j 0) ++ power (i + j)) := by
    intro p
    induction p with
    | nil => intro i; rfl
    | cons a p ih =>
      intro i
      rw [List.length_cons, List.range_succ_eq_map, List.filterMap_cons, List.filterMap_map]
      have e : (List.range p.length).filterMap ((fun j => if |(a :: p).getD j 0| ≤ eps then none
          else some (sh ((a :: p).getD j 0) ++ power (i + j))) ∘ Nat.succ) =
          (List.range p.length).filterMap fun j =>
            if |p.getD j 0| ≤ eps then none else some (sh (p.getD j 0) ++ power (i + 1 + j)) := by
        congr 1
        funext j
        simp only [Function.comp, List.getD_cons_succ, Nat.succ_eq_add_one]
        rw [show i + (j + 1) = i + 1 + j by omega]
      rw [e, ← ih]
      by_cases h : |a| ≤ eps
      · simp [kept, h]
      · simp [kept, h]
  have := key p 0
  simpa only [zero_add] using this

theorem power_inj : Function.Injective power := by
  intro i j h
  rcases i with _ | _ | i <;> rcases j with _ | _ | j <;> simp [power] at h ⊢
  · have := congrArg (fun l => Nat.ofDigitChars 10 l 0) h
    simpa [Nat.ofDigitChars_ten_toDigits] using this

theorem power_space (i : ℕ) : ' ' ∉ power i := by
  rcases i with _ | _ | i
  · simp [power]
  · simp [power]
  · simp only [power, List.mem_append, not_or]
    refine ⟨by decide, fun h => ?_⟩
    have := Nat.isDigit_of_mem_toDigits (by norm_num) (by norm_num) h
    exact absurd this (by decide)

omit [Field K] [LinearOrder K] [IsStrictOrderedRing K] in
/-- terms can be told apart -/
theorem term_inj {sh : K → List Char} (hs : Readable sh) :
    Function.Injective (fun t : K × ℕ => sh t.1 ++ power t.2) := by
  rintro ⟨a, i⟩ ⟨b, j⟩ h
  have hp : ∀ i, power i = [] ∨ ∃ t, power i = 'x' :: t := by
    intro i
    rcases i with _ | _ | i
    · exact Or.inl rfl
    · exact Or.inr ⟨[], rfl⟩
    · exact Or.inr ⟨_, rfl⟩
  obtain ⟨h1, h2⟩ := split_at (hs.sep a 'x' (by simp)) (hs.sep b 'x' (by simp)) (hp i) (hp j) h
  rw [hs.inj h1, power_inj h2]

/-- sums can be split into their terms -/
theorem sum_inj {l l' : List (List Char)} (hl : ∀ s ∈ l, ' ' ∉ s ∧ s ≠ []) (hl' : ∀ s ∈ l', ' ' ∉ s ∧ s ≠ [])
    (h : List.intercalate [' ', '+', ' '] l = List.intercalate [' ', '+', ' '] l') : l = l' := by
  have hc : ∀ (s : List Char) (l : List (List Char)), ∃ r, List.intercalate [' ', '+', ' '] (s :: l) = s ++ r ∧
      (r = [] ∨ ∃ t, r = ' ' :: t) ∧ (l = [] → r = []) ∧
      (l ≠ [] → r = [' ', '+', ' '] ++ List.intercalate [' ', '+', ' '] l) := by
    intro s l
    cases l with
    | nil => exact ⟨[], by simp [List.intercalate], Or.inl rfl, fun _ => rfl, fun h => absurd rfl h⟩
    | cons b l =>
      refine ⟨[' ', '+', ' '] ++ List.intercalate [' ', '+', ' '] (b :: l), ?_, Or.inr ⟨_, rfl⟩, fun h => by simp at h,
        fun _ => rfl⟩
      simp [List.intercalate]
  induction l generalizing l' with
  | nil =>
    cases l' with
    | nil => rfl
    | cons s l' =>
      obtain ⟨r, h1, -⟩ := hc s l'
      rw [h1] at h
      have := (hl' s (by simp)).2
      simp [List.intercalate] at h
      exact absurd h.1 this
  | cons s l ih =>
    cases l' with
    | nil =>
      obtain ⟨r, h1, -⟩ := hc s l
      rw [h1] at h
      have := (hl s (by simp)).2
      simp [List.intercalate] at h
      exact absurd h.1 this
    | cons s' l' =>
      obtain ⟨r, h1, h2, h3, h4⟩ := hc s l
      obtain ⟨r', h1', h2', h3', h4'⟩ := hc s' l'
      rw [h1, h1'] at h
      obtain ⟨e1, e2⟩ := split_at (hl s (by simp)).1 (hl' s' (by simp)).1 h2 h2' h
      rw [e1]
      congr 1
      by_cases n1 : l = []
      · by_cases n2 : l' = []
        · rw [n1, n2]
        · rw [h3 n1, h4' n2] at e2; simp at e2
      · by_cases n2 : l' = []
        · rw [h4 n1, h3' n2] at e2; simp at e2
        · rw [h4 n1, h4' n2] at e2
          exact ih (fun t ht => hl t (by simp [ht])) (fun t ht => hl' t (by simp [ht])) (List.append_cancel_left e2)

theorem kept_iff (eps : K) (he : 0 ≤ eps) (p q : List K) : ∀ i, kept eps p i = kept eps q i ↔
    ∀ j, cut eps (p.getD j 0) = cut eps (q.getD j 0) := by
  have h0 : cut eps (0 : K) = 0 := by simp [cut]
  have hlow : ∀ (p : List K) (i : ℕ), ∀ t ∈ kept eps p i, i ≤ t.2 := by
    intro p
    induction p with
    | nil => intro i t ht; simp [kept] at ht
    | cons a p ih =>
      intro i t ht
      rw [kept] at ht
      split_ifs at ht
      · exact (Nat.le_succ i).trans (ih _ t ht)
      · rcases List.mem_cons.1 ht with rfl | ht
        · exact le_rfl
        · exact (Nat.le_succ i).trans (ih _ t ht)
  have hnil : ∀ (p : List K) (i : ℕ), kept eps p i = [] ↔ ∀ j, cut eps (p.getD j 0) = 0 := by
    intro p
    induction p with
    | nil => intro i; simp [kept, h0]
    | cons a p ih =>
      intro i
      rw [kept]
      by_cases h : |a| ≤ eps
      · rw [if_pos h, ih]
        refine ⟨fun k j => ?_, fun k j => by simpa using k (j + 1)⟩
        cases j with
        | zero => simp [cut, h]
        | succ j => simpa using k j
      · rw [if_neg h]
        refine ⟨fun k => by simp at k, fun k => ?_⟩
        have := k 0
        simp only [List.getD_cons_zero, cut, if_neg h] at this
        exact absurd (by rw [this, abs_zero]; exact he) h
  induction p generalizing q with
  | nil =>
    intro i
    rw [show kept eps ([] : List K) i = [] from rfl, eq_comm, hnil]
    simp only [List.getD_nil, h0]
    exact ⟨fun h j => (h j).symm, fun h j => (h j).symm⟩
  | cons a p ih =>
    intro i
    cases q with
    | nil =>
      rw [show kept eps ([] : List K) i = [] from rfl, hnil]
      simp only [List.getD_nil, h0]
    | cons b q =>
      have hsplit : (∀ j, cut eps ((a :: p).getD j 0) = cut eps ((b :: q).getD j 0)) ↔
          cut eps a = cut eps b ∧ ∀ j, cut eps (p.getD j 0) = cut eps (q.getD j 0) := by
        refine ⟨fun h => ⟨by simpa using h 0, fun j => by simpa using h (j + 1)⟩, fun h j => ?_⟩
        cases j with
        | zero => simpa using h.1
        | succ j => simpa using h.2 j
      rw [hsplit, ← ih q (i + 1), kept, kept]
      by_cases ha : |a| ≤ eps
      · by_cases hb : |b| ≤ eps
        · simp [ha, hb, cut]
        · rw [if_pos ha, if_neg hb]
          refine ⟨fun h => ?_, fun h => ?_⟩
          · have := hlow p (i + 1) (b, i) (by rw [h]; simp)
            simp at this
          · simp only [cut, if_pos ha, if_neg hb] at h
            exact absurd (by rw [← h.1, abs_zero]; exact he) hb
      · by_cases hb : |b| ≤ eps
        · rw [if_neg ha, if_pos hb]
          refine ⟨fun h => ?_, fun h => ?_⟩
          · have := hlow q (i + 1) (a, i) (by rw [← h]; simp)
            simp at this
          · simp only [cut, if_neg ha, if_pos hb] at h
            exact absurd (by rw [h.1, abs_zero]; exact he) ha
        · simp [ha, hb, cut]

/-- **C104**, polynomials: the text determines the coefficients up to those within `eps` of 0. -/
theorem C104_poly_inj {sh : K → List Char} (hs : Readable sh) {eps : K} (he : 0 ≤ eps) (p q : List K) :
    poly sh eps p = poly sh eps q ↔
      ∀ j, (if |p.getD j 0| ≤ eps then 0 else p.getD j 0) = if |q.getD j 0| ≤ eps then 0 else q.getD j 0 := by
  rw [poly, poly, polyLoop_true, polyLoop_true]
  refine Iff.trans ⟨fun h => ?_, fun h => by rw [h]⟩ (kept_iff eps he p q 0)
  have hterm : ∀ (l : List (K × ℕ)), ∀ s ∈ l.map (fun t => sh t.1 ++ power t.2), ' ' ∉ s ∧ s ≠ [] := by
    intro l s hsm
    simp only [List.mem_map] at hsm
    obtain ⟨t, -, rfl⟩ := hsm
    refine ⟨fun hc => ?_, fun hc => hs.ne t.1 (List.append_eq_nil_iff.1 hc).1⟩
    rcases List.mem_append.1 hc with hc | hc
    · exact hs.sep t.1 ' ' (by simp) hc
    · exact power_space t.2 hc
  exact (term_inj hs).list_map (sum_inj (hterm _) (hterm _) h)

/-- **C104**: in particular the text of a polynomial is empty only if all coefficients are within `eps` of 0. -/
theorem C104_poly_empty {sh : K → List Char} (hs : Readable sh) {eps : K} (he : 0 ≤ eps) (p : List K) :
    poly sh eps p = [] ↔ ∀ a ∈ p, |a| ≤ eps := by
  have h := C104_poly_inj hs he p []
  rw [show poly sh eps ([] : List K) = [] from rfl] at h
  rw [h]
  constructor
  · intro k a ha
    obtain ⟨j, hj, rfl⟩ := List.getElem_of_mem ha
    have := k j
    rw [List.getD_nil, abs_zero, if_pos he, List.getD_eq_getElem?_getD, List.getElem?_eq_getElem hj, Option.getD_some] at this
    by_contra hc
    rw [if_neg hc] at this
    exact hc (by rw [this, abs_zero]; exact he)
  · intro k j
    rw [List.getD_nil, abs_zero, if_pos he]
    by_cases hj : j < p.length
    · rw [if_pos]
      rw [List.getD_eq_getElem?_getD, List.getElem?_eq_getElem hj, Option.getD_some]
      exact k _ (List.getElem_mem hj)
    · simp [List.getD_eq_getElem?_getD, List.getElem?_eq_none (not_lt.1 hj)]

/-- **C104** is violated by the zero polynomial, the text of which is empty, and by every polynomial with a coefficient of
absolute value at most `eps` other than 0, which is not printed. -/
theorem C104_poly_violated (sh : K → List Char) {eps : K} (he : 0 < eps) :
    poly sh eps [0] = [] ∧ poly sh eps [eps] = poly sh eps [0] ∧ [eps] ≠ [(0 : K)] := by
  refine ⟨by simp [poly, polyLoop, he.le], by simp [poly, polyLoop, he.le, abs_of_pos he], by simpa using he.ne'⟩

end Poly

/-! ### Examples -/

/-- decimal notation of integers -/
def shInt (x : ℚ) : List Char := (if x.num < 0 then ['-'] else []) ++ Nat.toDigits 10 x.num.natAbs

example : mat shInt (⟨2, 2, [1, 3, -2, 4]⟩ : Mat ℚ) = some "\n1 -2 \n3 4 \n\n".toList := by decide +kernel

example : String.ofList (poly shInt (1 / 1000) [-1, 0, 2, 5]) = "-1 + 2x^2 + 5x^3" := by decide +kernel

example : String.ofList (poly shInt (1 / 1000) [0, 7]) = "7x" := by decide +kernel

example : String.ofList (cx shInt ⟨3, -4⟩) = "3 + -4i" := by decide +kernel

/-- numbers that are readable: natural numbers in decimal notation -/
example : Readable (Nat.toDigits 10) where
  inj i j h := by
    have := congrArg (fun l => Nat.ofDigitChars 10 l 0) h
    simpa [Nat.ofDigitChars_ten_toDigits] using this
  ne _ := Nat.toDigits_ne_nil
  sep x c hc h := by
    have := Nat.isDigit_of_mem_toDigits (by norm_num) (by norm_num) h
    fin_cases hc <;> exact absurd this (by decide)

end Display
end Verif
