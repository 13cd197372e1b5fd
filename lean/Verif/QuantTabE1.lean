import Verif.QuantTabN3
import Mathlib.Tactic.NormNum

/-!
# Checked table of the inverse error function, centre
-/

namespace Verif
namespace PC

/-! ### `|x| ≤ 0.75`, `y = 10⁶ x²` -/

/-- the numerator, scaled to integer coefficients -/
def e1A : List ℤ :=
  [163214436998760371254195595836639404296875000000000000, -511943101130973568852618179321289062500000000000,
   611546165030778872475256958007812500000000, -344245352188209644675117187500000000,
   90596245284379014237031250000, -9236328505591802065000, 176058782139059, 0]

/-- the denominator, scaled to integer coefficients -/
def e1B : List ℤ :=
  [184167770478624230798720531463623046875000000000000000, -625880939618096537481921325683593750000000000000,
   827403613193200317302529296875000000000000, -532955407285219347659218750000000000,
   170291150815375894143750000000, -23976073032826544300000, 1000000000000000, 0]

/-- the intervals of the check, part 0 -/
def e1S0 : List (ℤ × ℤ) :=
  [(17578, 4640000000000000000), (17578, 12600000000000000000), (17578, 15600000000000000000),
   (17578, 16400000000000000000), (17578, 16200000000000000000), (17578, 14700000000000000000),
   (17578, 12900000000000000000), (17579, 10900000000000000000), (17578, 9030000000000000000),
   (17578, 7440000000000000000)]

set_option maxRecDepth 10000 in
theorem e1_chain0 : chain (cP 2 1000000 e1A e1B) (cQ 1000000 e1A e1B) e1B 0 e1S0 = true := by
  decide +kernel

theorem e1_hi0 : hiOf 0 e1S0 = 351562 := by decide +kernel

/-- the intervals of the check, part 1 -/
def e1S1 : List (ℤ × ℤ) :=
  [(17578, 4890000000000000000), (17578, 4120000000000000000), (8789, 5980000000000000000),
   (8789, 6830000000000000000), (8789, 4560000000000000000), (8789, 2990000000000000000),
   (8789, 2930000000000000000), (4394, 2830000000000000000), (4395, 2240000000000000000),
   (4394, 2570000000000000000)]

set_option maxRecDepth 10000 in
theorem e1_chain1 : chain (cP 2 1000000 e1A e1B) (cQ 1000000 e1A e1B) e1B 351562 e1S1 = true := by
  decide +kernel

theorem e1_hi1 : hiOf 351562 e1S1 = 536130 := by decide +kernel

/-- the intervals of the check, part 2 -/
def e1S2 : List (ℤ × ℤ) :=
  [(4395, 995000000000000000), (2197, 1040000000000000000), (2198, 1400000000000000000),
   (1098, 556000000000000000), (1099, 296000000000000000), (549, 227000000000000000),
   (550, 178000000000000000), (549, 143000000000000000), (550, 115000000000000000)]

set_option maxRecDepth 10000 in
theorem e1_chain2 : chain (cP 2 1000000 e1A e1B) (cQ 1000000 e1A e1B) e1B 536130 e1S2 = true := by
  decide +kernel

theorem e1_hi2 : hiOf 536130 e1S2 = 562500 := by decide +kernel

/-- the intervals of the check -/
def e1S : List (ℤ × ℤ) :=
  e1S0 ++ (e1S1 ++ (e1S2))

theorem e1_chain : chain (cP 2 1000000 e1A e1B) (cQ 1000000 e1A e1B) e1B 0 e1S = true := by
  rw [e1S, chain_append, e1_chain0, e1_hi0, chain_append, e1_chain1, e1_hi1, e1_chain2]
  rfl

theorem e1_tot : tot e1S ≤ 14e-14 := by
  norm_num [tot, e1S, e1S0, e1S1, e1S2]

theorem e1_hi : hiOf 0 e1S = 562500 := by decide +kernel

theorem e1_ne : e1S ≠ [] := by simp [e1S, e1S0]

end PC
end Verif
