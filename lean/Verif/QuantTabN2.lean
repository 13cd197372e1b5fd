import Verif.QuantTabN1
import Mathlib.Tactic.NormNum

/-!
# Checked table of the normal quantile, middle
-/

namespace Verif
namespace PC

/-! ### `normalR2`, `y = 10⁴ r` -/

/-- the numerator, scaled to integer coefficients -/
def n2A : List ℤ :=
  [-1376356657728642957851408896000000000000000000000000000,
   -1194826996633437822430513408000000000000000000000000, -164962952212189910639390336000000000000000000000,
   5656682321239963873724160000000000000000000, 2444233134343928805486240000000000000000,
   163178383120175184612616000000000000, 3512235207337940204433000000000, 19363625356958535191000000, 0]

/-- the denominator, scaled to integer coefficients -/
def n2B : List ℤ :=
  [395819989945624794897025169752064000000000000000000000,
   580403969601474777351085888233472000000000000000000, 179179370275628573193637195956224000000000000000,
   21532276525593849779771458754560000000000000, 1188552388235006766656033827840000000000,
   24854556225861944130723731456000000, 136895510024683019282838928000, 26268751791110421081, 0]

/-- the intervals of the check, part 0 -/
def n2S0 : List (ℤ × ℤ) :=
  [(132, 26400000000000000), (133, 138000000000000000), (266, 128000000000000000), (265, 254000000000000000),
   (266, 424000000000000000), (531, 157000000000000000), (532, 344000000000000000),
   (531, 449000000000000000), (531, 566000000000000000), (531, 644000000000000000)]

set_option maxRecDepth 10000 in
theorem n2_chain0 : chain (tP 1 10000 n2A n2B) (tQ 10000 n2A n2B) n2B 16000 n2S0 = true := by
  decide +kernel

theorem n2_hi0 : hiOf 16000 n2S0 = 23436 := by decide +kernel

/-- the intervals of the check, part 1 -/
def n2S1 : List (ℤ × ℤ) :=
  [(532, 1200000000000000000), (531, 751000000000000000), (531, 1190000000000000000),
   (531, 1180000000000000000), (532, 948000000000000000), (531, 1500000000000000000),
   (531, 1580000000000000000), (531, 1040000000000000000), (532, 1440000000000000000),
   (1062, 102000000000000000)]

set_option maxRecDepth 10000 in
theorem n2_chain1 : chain (tP 1 10000 n2A n2B) (tQ 10000 n2A n2B) n2B 23436 n2S1 = true := by
  decide +kernel

theorem n2_hi1 : hiOf 23436 n2S1 = 35124 := by decide +kernel

/-- the intervals of the check, part 2 -/
def n2S2 : List (ℤ × ℤ) :=
  [(1063, 179000000000000000), (1062, 189000000000000000), (1063, 282000000000000000),
   (1062, 192000000000000000), (1063, 201000000000000000), (1062, 114000000000000000),
   (531, 237000000000000000), (266, 172000000000000000), (266, 116000000000000000)]

set_option maxRecDepth 10000 in
theorem n2_chain2 : chain (tP 1 10000 n2A n2B) (tQ 10000 n2A n2B) n2B 35124 n2S2 = true := by
  decide +kernel

theorem n2_hi2 : hiOf 35124 n2S2 = 50000 := by decide +kernel

/-- the intervals of the check -/
def n2S : List (ℤ × ℤ) :=
  n2S0 ++ (n2S1 ++ (n2S2))

theorem n2_chain : chain (tP 1 10000 n2A n2B) (tQ 10000 n2A n2B) n2B 16000 n2S = true := by
  rw [n2S, chain_append, n2_chain0, n2_hi0, chain_append, n2_chain1, n2_hi1, n2_chain2]
  rfl

theorem n2_tot : tot n2S ≤ 15e-14 := by
  norm_num [tot, n2S, n2S0, n2S1, n2S2]

theorem n2_hi : hiOf 16000 n2S = 50000 := by decide +kernel

theorem n2_ne : n2S ≠ [] := by simp [n2S, n2S0]

end PC
end Verif
