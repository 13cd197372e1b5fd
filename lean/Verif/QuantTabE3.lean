import Verif.QuantTabE2
import Mathlib.Tactic.NormNum

/-!
# Checked table of the inverse error function, tail
-/

namespace Verif
namespace PC

/-! ### `0.9375 < |x|`, `y = 10⁴ / t` -/

/-- the numerator, scaled to integer coefficients -/
def e3A : List ℤ :=
  [0, 0, 2215156848241288670372500000000000000000000000000000000,
   906750620773967723250500000000000000000000000000000, 171845220183859599507282500000000000000000000000,
   21368902955541956956296250000000000000000000, 1791963698727699920250025000000000000000,
   58171739472299227016035000000000000, 674695068406082088612900000000, 2633152828558334541062500,
   2625327880933359529]

/-- the denominator, scaled to integer coefficients -/
def e3B : List ℤ :=
  [250000000000000000000000000000000000000000000000000000000000000,
   102484697690920038403625000000000000000000000000000000000000,
   20480602436817476973478250000000000000000000000000000000,
   2987196979608849166960950000000000000000000000000000, 279539652601422695683627500000000000000000000000,
   19019507196450319266087750000000000000000000, 587535909949256331478075000000000000000,
   6754965593437888711388250000000000, 26332155752333318827775000000, 26253166717575844225000]

/-- the intervals of the check, part 0 -/
def e3S0 : List (ℤ × ℤ) :=
  [(81, 3100000000000000), (81, 6520000000000000), (163, 16800000000000000), (326, 14300000000000000),
   (326, 26800000000000000), (326, 46000000000000000), (325, 107000000000000000), (326, 78000000000000000),
   (326, 130000000000000000), (326, 124000000000000000)]

set_option maxRecDepth 10000 in
theorem e3_chain0 : chain (tP 2 10000 e3A e3B) (tQ 10000 e3A e3B) e3B 16600 e3S0 = true := by
  decide +kernel

theorem e3_hi0 : hiOf 16600 e3S0 = 21812 := by decide +kernel

/-- the intervals of the check, part 1 -/
def e3S1 : List (ℤ × ℤ) :=
  [(325, 86200000000000000), (326, 101000000000000000), (326, 186000000000000000), (326, 345000000000000000),
   (651, 14500000000000000), (652, 42100000000000000), (651, 33000000000000000), (652, 35800000000000000),
   (651, 70700000000000000), (652, 155000000000000000)]

set_option maxRecDepth 10000 in
theorem e3_chain1 : chain (tP 2 10000 e3A e3B) (tQ 10000 e3A e3B) e3B 21812 e3S1 = true := by
  decide +kernel

theorem e3_hi1 : hiOf 21812 e3S1 = 32236 := by decide +kernel

/-- the intervals of the check, part 2 -/
def e3S2 : List (ℤ × ℤ) :=
  [(651, 116000000000000000), (652, 137000000000000000), (652, 267000000000000000),
   (652, 203000000000000000), (651, 117000000000000000), (652, 110000000000000000),
   (651, 146000000000000000), (652, 268000000000000000), (651, 463000000000000000), (652, 239000000000000000)]

set_option maxRecDepth 10000 in
theorem e3_chain2 : chain (tP 2 10000 e3A e3B) (tQ 10000 e3A e3B) e3B 32236 e3S2 = true := by
  decide +kernel

theorem e3_hi2 : hiOf 32236 e3S2 = 45268 := by decide +kernel

/-- the intervals of the check, part 3 -/
def e3S3 : List (ℤ × ℤ) :=
  [(651, 173000000000000000), (652, 172000000000000000), (651, 226000000000000000),
   (652, 395000000000000000), (651, 639000000000000000), (652, 323000000000000000),
   (651, 203000000000000000), (652, 170000000000000000), (652, 170000000000000000), (652, 199000000000000000)]

set_option maxRecDepth 10000 in
theorem e3_chain3 : chain (tP 2 10000 e3A e3B) (tQ 10000 e3A e3B) e3B 45268 e3S3 = true := by
  decide +kernel

theorem e3_hi3 : hiOf 45268 e3S3 = 58300 := by decide +kernel

/-- the intervals of the check, part 4 -/
def e3S4 : List (ℤ × ℤ) :=
  [(1303, 15100000000000000), (1303, 32600000000000000), (1303, 24700000000000000),
   (1303, 30200000000000000), (1303, 52800000000000000), (1303, 121000000000000000),
   (1303, 91200000000000000), (1304, 55500000000000000), (1303, 53900000000000000), (1303, 71500000000000000)]

set_option maxRecDepth 10000 in
theorem e3_chain4 : chain (tP 2 10000 e3A e3B) (tQ 10000 e3A e3B) e3B 58300 e3S4 = true := by
  decide +kernel

theorem e3_hi4 : hiOf 58300 e3S4 = 84362 := by decide +kernel

/-- the intervals of the check, part 5 -/
def e3S5 : List (ℤ × ℤ) :=
  [(1303, 135000000000000000), (1303, 213000000000000000), (1303, 87600000000000000),
   (1303, 62300000000000000), (1303, 59700000000000000), (1304, 72900000000000000)]

set_option maxRecDepth 10000 in
theorem e3_chain5 : chain (tP 2 10000 e3A e3B) (tQ 10000 e3A e3B) e3B 84362 e3S5 = true := by
  decide +kernel

theorem e3_hi5 : hiOf 84362 e3S5 = 100000 := by decide +kernel

/-- the intervals of the check -/
def e3S : List (ℤ × ℤ) :=
  e3S0 ++ (e3S1 ++ (e3S2 ++ (e3S3 ++ (e3S4 ++ (e3S5)))))

theorem e3_chain : chain (tP 2 10000 e3A e3B) (tQ 10000 e3A e3B) e3B 16600 e3S = true := by
  rw [e3S, chain_append, e3_chain0, e3_hi0, chain_append, e3_chain1, e3_hi1, chain_append, e3_chain2, e3_hi2, chain_append, e3_chain3, e3_hi3, chain_append, e3_chain4, e3_hi4, e3_chain5]
  rfl

theorem e3_tot : tot e3S ≤ 15e-13 := by
  norm_num [tot, e3S, e3S0, e3S1, e3S2, e3S3, e3S4, e3S5]

theorem e3_hi : hiOf 16600 e3S = 100000 := by decide +kernel

theorem e3_ne : e3S ≠ [] := by simp [e3S, e3S0]

end PC
end Verif
