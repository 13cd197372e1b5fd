import Verif.QuantCore
import Mathlib.Tactic.NormNum

/-!
# Checked table of the normal quantile, centre
-/

namespace Verif
namespace PC

/-! ### `normalR1`, `y = 10⁸ q²` -/

/-- the numerator, scaled to integer coefficients -/
def n1A : List ℤ :=
  [235669387181021195919596883473175365885283797979354858398437500000000000000,
   -36690176745050610457664593656591956360876560211181640625000000000000,
   2290961936276320621991335976298626788139343261718750000000000,
   -72889602402754015830939148678531570434570312500000000, 1235491441865129044106326033497314453125000000,
   -10521521186932305347221488699218750000, 36602994782851276959295062500, -25090809287301226727, 0]

/-- the denominator, scaled to integer coefficients -/
def n1B : List ℤ :=
  [94018482742804754847553198637076808123625814914703369140625000000000000000,
   -15621822027956853739830723984657847313284873962402343750000000000000,
   1055901328174989515934082105361668291091918945312500000000000,
   -37126215498767868683342498937383270263671875000000000, 718511860452517588771987971960449218750000000,
   -7402388791769951230387519570312500000, 35337335703921520659564375000, -52264952788528545610, 0]

/-- the intervals of the check, part 0 -/
def n1S0 : List (ℤ × ℤ) :=
  [(564453, 40500000000000000000), (564453, 112000000000000000000), (564453, 144000000000000000000),
   (564453, 149000000000000000000), (564453, 91900000000000000000), (564453, 89400000000000000000),
   (564453, 52900000000000000000), (564454, 44100000000000000000), (564453, 18700000000000000000),
   (282226, 193000000000000000000)]

set_option maxRecDepth 10000 in
theorem n1_chain0 : chain (cP 1 100000000 n1A n1B) (cQ 100000000 n1A n1B) n1B 0 n1S0 = true := by
  decide +kernel

theorem n1_hi0 : hiOf 0 n1S0 = 10724608 := by decide +kernel

/-- the intervals of the check, part 1 -/
def n1S1 : List (ℤ × ℤ) :=
  [(282227, 119000000000000000000), (282226, 135000000000000000000), (282227, 130000000000000000000),
   (282226, 76500000000000000000), (282227, 82100000000000000000), (282226, 68200000000000000000),
   (282227, 40800000000000000000), (282226, 42400000000000000000), (282227, 21400000000000000000),
   (282226, 17000000000000000000)]

set_option maxRecDepth 10000 in
theorem n1_chain1 : chain (cP 1 100000000 n1A n1B) (cQ 100000000 n1A n1B) n1B 10724608 n1S1 = true := by
  decide +kernel

theorem n1_hi1 : hiOf 10724608 n1S1 = 16369138 := by decide +kernel

/-- the intervals of the check, part 2 -/
def n1S2 : List (ℤ × ℤ) :=
  [(282227, 8570000000000000000), (141113, 17600000000000000000), (141114, 11300000000000000000),
   (141113, 4990000000000000000), (70557, 5720000000000000000), (35278, 2100000000000000000),
   (35279, 964000000000000000)]

set_option maxRecDepth 10000 in
theorem n1_chain2 : chain (cP 1 100000000 n1A n1B) (cQ 100000000 n1A n1B) n1B 16369138 n1S2 = true := by
  decide +kernel

theorem n1_hi2 : hiOf 16369138 n1S2 = 18062500 := by decide +kernel

/-- the intervals of the check -/
def n1S : List (ℤ × ℤ) :=
  n1S0 ++ (n1S1 ++ (n1S2))

theorem n1_chain : chain (cP 1 100000000 n1A n1B) (cQ 100000000 n1A n1B) n1B 0 n1S = true := by
  rw [n1S, chain_append, n1_chain0, n1_hi0, chain_append, n1_chain1, n1_hi1, n1_chain2]
  rfl

theorem n1_tot : tot n1S ≤ 61e-14 := by
  norm_num [tot, n1S, n1S0, n1S1, n1S2]

theorem n1_hi : hiOf 0 n1S = 18062500 := by decide +kernel

theorem n1_ne : n1S ≠ [] := by simp [n1S, n1S0]

end PC
end Verif
