import Verif.QuantTabE1
import Mathlib.Tactic.NormNum

/-!
# Checked table of the inverse error function, middle
-/

namespace Verif
namespace PC

/-! ### `0.75 < |x| ≤ 0.9375`, `y = 2 * 10⁸ x²` -/

/-- the numerator, scaled to integer coefficients -/
def e2A : List ℤ :=
  [7348079758983872858027138856072988772893950226716697216033935546875000000,
   -169347178486938836414079479014436947181820869445800781250000000000,
   1602167427374810438108525636792415753006935119628906250000,
   -7961899435609321499728334221243858337402343750000, 21976718579490284404424806594848632812500,
   -32416945327440107003486328125000, 21688162302620546934375, -3711198266007, 0]

/-- the denominator, scaled to integer coefficients -/
def e2B : List ℤ :=
  [8291419411002667582424572472094878179404986440204083919525146484375000000,
   -201941216913252448469821607433735698577947914600372314453125000000,
   2042355984325429437173687662553275004029273986816406250000,
   -11032019885250868006684982484579086303710937500000, 33974921220029451362011957168579101562500,
   -58545216780029224993403320312500, 50521000311822096359375, -15625000000000, 0]

/-- the intervals of the check, part 0 -/
def e2S0 : List (ℤ × ℤ) :=
  [(494384, 15500000000000000000), (494385, 37000000000000000000), (988770, 63300000000000000000),
   (1977539, 33700000000000000000), (1977539, 61500000000000000000), (1977539, 90900000000000000000),
   (1977539, 77900000000000000000), (1977539, 93400000000000000000), (1977539, 60500000000000000000),
   (1977539, 63100000000000000000)]

set_option maxRecDepth 10000 in
theorem e2_chain0 : chain (cP 2 200000000 e2A e2B) (cQ 200000000 e2A e2B) e2B 112500000 e2S0 = true := by
  decide +kernel

theorem e2_hi0 : hiOf 112500000 e2S0 = 144140624 := by decide +kernel

/-- the intervals of the check, part 1 -/
def e2S1 : List (ℤ × ℤ) :=
  [(1977539, 29100000000000000000), (988769, 303000000000000000000), (988770, 191000000000000000000),
   (988769, 236000000000000000000), (988770, 226000000000000000000), (988769, 137000000000000000000),
   (988770, 158000000000000000000), (988769, 133000000000000000000), (988770, 82300000000000000000),
   (988769, 86600000000000000000)]

set_option maxRecDepth 10000 in
theorem e2_chain1 : chain (cP 2 200000000 e2A e2B) (cQ 200000000 e2A e2B) e2B 144140624 e2S1 = true := by
  decide +kernel

theorem e2_hi1 : hiOf 144140624 e2S1 = 165893552 := by decide +kernel

/-- the intervals of the check, part 2 -/
def e2S2 : List (ℤ × ℤ) :=
  [(988770, 45300000000000000000), (988769, 37100000000000000000), (494385, 61000000000000000000),
   (494385, 91600000000000000000), (494385, 40200000000000000000), (494385, 26200000000000000000),
   (494385, 11600000000000000000), (247192, 13500000000000000000), (123596, 4970000000000000000),
   (61798, 3300000000000000000)]

set_option maxRecDepth 10000 in
theorem e2_chain2 : chain (cP 2 200000000 e2A e2B) (cQ 200000000 e2A e2B) e2B 165893552 e2S2 = true := by
  decide +kernel

theorem e2_hi2 : hiOf 165893552 e2S2 = 175657652 := by decide +kernel

/-- the intervals of the check, part 3 -/
def e2S3 : List (ℤ × ℤ) :=
  [(61799, 2290000000000000000)]

set_option maxRecDepth 10000 in
theorem e2_chain3 : chain (cP 2 200000000 e2A e2B) (cQ 200000000 e2A e2B) e2B 175657652 e2S3 = true := by
  decide +kernel

theorem e2_hi3 : hiOf 175657652 e2S3 = 175781250 := by decide +kernel

/-- the intervals of the check -/
def e2S : List (ℤ × ℤ) :=
  e2S0 ++ (e2S1 ++ (e2S2 ++ (e2S3)))

theorem e2_chain : chain (cP 2 200000000 e2A e2B) (cQ 200000000 e2A e2B) e2B 112500000 e2S = true := by
  rw [e2S, chain_append, e2_chain0, e2_hi0, chain_append, e2_chain1, e2_hi1, chain_append, e2_chain2, e2_hi2, e2_chain3]
  rfl

theorem e2_tot : tot e2S ≤ 13e-13 := by
  norm_num [tot, e2S, e2S0, e2S1, e2S2, e2S3]

theorem e2_hi : hiOf 112500000 e2S = 175781250 := by decide +kernel

theorem e2_ne : e2S ≠ [] := by simp [e2S, e2S0]

end PC
end Verif
