import Verif.QuantTabN2
import Mathlib.Tactic.NormNum

/-!
# Checked table of the normal quantile, tail
-/

namespace Verif
namespace PC

/-! ### `normalR3`, `y = 10⁴ r` -/

/-- the numerator, scaled to integer coefficients -/
def n3A : List ℤ :=
  [-787519826566333875097656250000000000000000000000000000000000,
   -291138505459827279431640625000000000000000000000000000000,
   9839305788461756577617187500000000000000000000000000, 3297683855966682464105468750000000000000000000000,
   118861948124296612200703125000000000000000000, 1336842081819693230297812500000000000000,
   5019846322477966829306250000000000, 5025835998230720331625000000, 0]

/-- the denominator, scaled to integer coefficients -/
def n3B : List ℤ :=
  [245675109777264404376176061718750000000000000000000000000000,
   194576041711412966892804101359375000000000000000000000000,
   25208798505524474314228628918437500000000000000000000, 849599141713157572369983202718750000000000000000,
   9464905844032880803631585945625000000000000, 35496622433473346079045968652500000000,
   35537776070608992555526875650000, 51106577584748494641, 0]

/-- the intervals of the check, part 0 -/
def n3S0 : List (ℤ × ℤ) :=
  [(1796, 21800000000000000), (1797, 105000000000000000), (1797, 195000000000000000),
   (1797, 211000000000000000), (1797, 379000000000000000), (1797, 290000000000000000),
   (1797, 486000000000000000), (1797, 585000000000000000), (1796, 352000000000000000),
   (1797, 467000000000000000)]

set_option maxRecDepth 10000 in
theorem n3_chain0 : chain (tP 1 10000 n3A n3B) (tQ 10000 n3A n3B) n3B 50000 n3S0 = true := by
  decide +kernel

theorem n3_hi0 : hiOf 50000 n3S0 = 85936 := by decide +kernel

/-- the intervals of the check, part 1 -/
def n3S1 : List (ℤ × ℤ) :=
  [(1797, 768000000000000000), (1797, 492000000000000000), (1797, 387000000000000000),
   (1797, 486000000000000000), (3594, 58000000000000000), (3593, 60500000000000000),
   (3594, 134000000000000000), (3594, 146000000000000000), (3594, 112000000000000000),
   (3593, 194000000000000000)]

set_option maxRecDepth 10000 in
theorem n3_chain1 : chain (tP 1 10000 n3A n3B) (tQ 10000 n3A n3B) n3B 85936 n3S1 = true := by
  decide +kernel

theorem n3_hi1 : hiOf 85936 n3S1 = 143436 := by decide +kernel

/-- the intervals of the check, part 2 -/
def n3S2 : List (ℤ × ℤ) :=
  [(3594, 268000000000000000), (3594, 137000000000000000), (3594, 164000000000000000),
   (3593, 277000000000000000), (3594, 192000000000000000), (3594, 136000000000000000),
   (3594, 177000000000000000), (3593, 273000000000000000), (3594, 153000000000000000),
   (3594, 120000000000000000)]

set_option maxRecDepth 10000 in
theorem n3_chain2 : chain (tP 1 10000 n3A n3B) (tQ 10000 n3A n3B) n3B 143436 n3S2 = true := by
  decide +kernel

theorem n3_hi2 : hiOf 143436 n3S2 = 215312 := by decide +kernel

/-- the intervals of the check, part 3 -/
def n3S3 : List (ℤ × ℤ) :=
  [(3594, 172000000000000000), (3593, 237000000000000000), (3594, 97000000000000000),
   (3594, 95400000000000000), (3594, 115000000000000000), (3593, 53300000000000000),
   (3594, 37500000000000000), (1797, 26700000000000000), (1797, 10000000000000000), (449, 10600000000000000)]

set_option maxRecDepth 10000 in
theorem n3_chain3 : chain (tP 1 10000 n3A n3B) (tQ 10000 n3A n3B) n3B 215312 n3S3 = true := by
  decide +kernel

theorem n3_hi3 : hiOf 215312 n3S3 = 273710 := by decide +kernel

/-- the intervals of the check, part 4 -/
def n3S4 : List (ℤ × ℤ) :=
  [(224, 10100000000000000), (225, 9230000000000000), (224, 8450000000000000), (225, 7740000000000000),
   (225, 7110000000000000), (225, 6550000000000000), (224, 6040000000000000), (225, 5580000000000000),
   (224, 5170000000000000), (225, 4790000000000000)]

set_option maxRecDepth 10000 in
theorem n3_chain4 : chain (tP 1 10000 n3A n3B) (tQ 10000 n3A n3B) n3B 273710 n3S4 = true := by
  decide +kernel

theorem n3_hi4 : hiOf 273710 n3S4 = 278202 := by decide +kernel

/-- the intervals of the check, part 5 -/
def n3S5 : List (ℤ × ℤ) :=
  [(112, 4700000000000000), (112, 4530000000000000), (112, 4370000000000000), (113, 4210000000000000),
   (112, 4070000000000000), (113, 3920000000000000), (112, 3790000000000000), (113, 3660000000000000)]

set_option maxRecDepth 10000 in
theorem n3_chain5 : chain (tP 1 10000 n3A n3B) (tQ 10000 n3A n3B) n3B 278202 n3S5 = true := by
  decide +kernel

theorem n3_hi5 : hiOf 278202 n3S5 = 280000 := by decide +kernel

/-- the intervals of the check -/
def n3S : List (ℤ × ℤ) :=
  n3S0 ++ (n3S1 ++ (n3S2 ++ (n3S3 ++ (n3S4 ++ (n3S5)))))

theorem n3_chain : chain (tP 1 10000 n3A n3B) (tQ 10000 n3A n3B) n3B 50000 n3S = true := by
  rw [n3S, chain_append, n3_chain0, n3_hi0, chain_append, n3_chain1, n3_hi1, chain_append, n3_chain2, n3_hi2, chain_append, n3_chain3, n3_hi3, chain_append, n3_chain4, n3_hi4, n3_chain5]
  rfl

theorem n3_tot : tot n3S ≤ 35e-13 := by
  norm_num [tot, n3S, n3S0, n3S1, n3S2, n3S3, n3S4, n3S5]

theorem n3_hi : hiOf 50000 n3S = 280000 := by decide +kernel

theorem n3_ne : n3S ≠ [] := by simp [n3S, n3S0]

end PC
end Verif
