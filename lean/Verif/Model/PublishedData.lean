import Mathlib.Data.Rat.Defs

/-!
# The published nonlinear curves, `src/pystrata/data/published_curves.toml`

All entries of the file in order.  Strains are in units of 1e-9, values in units of 1e-5 (all numbers of the file are
multiples of these), so the numbers are exact.
-/

namespace Verif.Published

set_option autoImplicit false

/-- `strains` [1e-9] and `values` [1e-5] of a curve. -/
structure Table where
  strains : List Nat
  values : List Nat
deriving DecidableEq

/-- One `[[models]]` entry; a missing table is `none`. -/
structure Entry where
  name : String
  modReduc : Option Table := none
  damping : Option Table := none
deriving DecidableEq

/-- src/pystrata/data/published_curves.toml:1-1565, all models. -/
def published : List Entry := [
  { name := "Vucetic & Dobry (91), PI=0"
    modReduc := some ⟨[1000, 3160, 10000, 31600, 100000, 316000, 1000000, 3160000, 10000000],
      [100000, 100000, 96000, 88000, 70000, 47000, 26000, 11000, 3000]⟩
    damping := some ⟨[1000, 3160, 10000, 31600, 100000, 316000, 1000000, 3160000, 10000000],
      [1000, 1000, 1000, 3000, 5400, 9800, 15000, 20300, 24000]⟩ },
  { name := "Vucetic & Dobry (91), PI=15"
    modReduc := some ⟨[1000, 3160, 10000, 31600, 100000, 316000, 1000000, 3160000, 10000000],
      [100000, 100000, 99000, 94000, 81000, 64000, 41000, 22000, 10000]⟩
    damping := some ⟨[1000, 3160, 10000, 31600, 100000, 316000, 1000000, 3160000, 10000000],
      [1000, 1000, 1000, 2600, 4500, 7500, 11600, 16000, 20000]⟩ },
  { name := "Vucetic & Dobry (91), PI=30"
    modReduc := some ⟨[1000, 3160, 10000, 31600, 100000, 316000, 1000000, 3160000, 10000000],
      [100000, 100000, 100000, 98000, 90000, 75000, 53000, 35000, 17000]⟩
    damping := some ⟨[1000, 3160, 10000, 31600, 100000, 316000, 1000000, 3160000, 10000000],
      [1000, 1000, 1000, 2100, 3800, 5900, 8800, 12500, 16900]⟩ },
  { name := "Vucetic & Dobry (91), PI=50"
    modReduc := some ⟨[1000, 3160, 10000, 31600, 100000, 316000, 1000000, 3160000, 10000000],
      [100000, 100000, 100000, 100000, 95000, 84000, 67000, 47000, 25000]⟩
    damping := some ⟨[1000, 3160, 10000, 31600, 100000, 316000, 1000000, 3160000, 10000000],
      [1000, 1000, 1000, 1800, 2900, 4300, 6200, 9500, 13500]⟩ },
  { name := "Vucetic & Dobry (91), PI=100"
    modReduc := some ⟨[1000, 3160, 10000, 31600, 100000, 316000, 1000000, 3160000, 10000000],
      [100000, 100000, 100000, 100000, 98000, 92000, 81000, 63000, 37000]⟩
    damping := some ⟨[1000, 3160, 10000, 31600, 100000, 316000, 1000000, 3160000, 10000000],
      [1000, 1000, 1000, 1500, 2000, 2900, 4100, 6500, 9800]⟩ },
  { name := "Vucetic & Dobry (91), PI=200"
    modReduc := some ⟨[1000, 3160, 10000, 31600, 100000, 316000, 1000000, 3160000, 10000000],
      [100000, 100000, 100000, 100000, 100000, 96000, 89000, 75000, 53000]⟩
    damping := some ⟨[1000, 3160, 10000, 31600, 100000, 316000, 1000000, 3160000, 10000000],
      [1000, 1000, 1000, 1300, 1600, 2100, 3000, 4800, 8100]⟩ },
  { name := "EPRI (93), PI=10"
    modReduc := some ⟨[1000, 1778, 3162, 5623, 10000, 17780, 31620, 56230, 100000, 177800, 316200, 562300, 1000000,
      1778000, 3162000, 5623000, 10000000],
      [100000, 100000, 99800, 99300, 97700, 95100, 90500, 83900, 74600, 62600, 49500, 36400, 24400, 15800, 9200,
        5200, 3200]⟩
    damping := some ⟨[1000, 1778, 3162, 5623, 10000, 17780, 31620, 56230, 100000, 177800, 316200, 562300, 1000000,
      1778000, 3162000, 5623000, 10000000],
      [1000, 991, 1054, 1122, 1337, 1639, 2040, 2890, 3981, 5585, 7733, 10388, 13339, 16412, 19099, 20336, 19936]⟩ },
  { name := "EPRI (93), PI=30"
    modReduc := some ⟨[1000, 1778, 3162, 5623, 10000, 17780, 31620, 56230, 100000, 177800, 316200, 562300, 1000000,
      1778000, 3162000, 5623000, 10000000],
      [100000, 100000, 100000, 100000, 99700, 99000, 96800, 93100, 87200, 78400, 67100, 54300, 40900, 28800, 18800,
        11700, 7400]⟩
    damping := some ⟨[1000, 1778, 3162, 5623, 10000, 17780, 31620, 56230, 100000, 177800, 316200, 562300, 1000000,
      1778000, 3162000, 5623000, 10000000],
      [1428, 1420, 1423, 1513, 1600, 1743, 2026, 2480, 3095, 4113, 5643, 7744, 10295, 13199, 16085, 18394, 18956]⟩ },
  { name := "EPRI (93), PI=50"
    modReduc := some ⟨[1000, 1778, 3162, 5623, 10000, 17780, 31620, 56230, 100000, 177800, 316200, 562300, 1000000,
      1778000, 3162000, 5623000, 10000000],
      [100000, 100000, 100000, 100000, 100000, 100000, 99600, 98100, 95100, 89700, 82100, 71400, 58500, 45100,
        33000, 22400, 15300]⟩
    damping := some ⟨[1000, 1778, 3162, 5623, 10000, 17780, 31620, 56230, 100000, 177800, 316200, 562300, 1000000,
      1778000, 3162000, 5623000, 10000000],
      [1928, 1920, 1911, 1973, 1965, 2037, 2142, 2348, 2773, 3346, 4330, 5778, 7759, 10214, 12931, 15617, 17429]⟩ },
  { name := "EPRI (93), PI=70"
    modReduc := some ⟨[1000, 1778, 3162, 5623, 10000, 17780, 31620, 56230, 100000, 177800, 316200, 562300, 1000000,
      1778000, 3162000, 5623000, 10000000],
      [100000, 100000, 100000, 100000, 100000, 100000, 100000, 100000, 99600, 97600, 93700, 87700, 78500, 67100,
        53600, 40800, 29900]⟩
    damping := some ⟨[1000, 1778, 3162, 5623, 10000, 17780, 31620, 56230, 100000, 177800, 316200, 562300, 1000000,
      1778000, 3162000, 5623000, 10000000],
      [2500, 2491, 2411, 2402, 2393, 2411, 2446, 2545, 2662, 2937, 3365, 4119, 5279, 6966, 9111, 11421, 13704]⟩ },
  { name := "EPRI (93), 0-20 ft"
    modReduc := some ⟨[1000, 1778, 3162, 5623, 10000, 17780, 31620, 56230, 100000, 177800, 316200, 562300, 1000000,
      1778000, 3162000, 5623000, 10000000],
      [100000, 100000, 100000, 99800, 98600, 96000, 92000, 85100, 75900, 64200, 51500, 39200, 27800, 18900, 12100,
        7300, 4300]⟩
    damping := some ⟨[1000, 1778, 3162, 5623, 10000, 17780, 31620, 56230, 100000, 177800, 316200, 562300, 1000000,
      1778000, 3162000, 5623000, 10000000],
      [1429, 1476, 1536, 1602, 1879, 2193, 2819, 3724, 5066, 6940, 9346, 12201, 15443, 18703, 21704, 24541, 27217]⟩ },
  { name := "EPRI (93), 20-50 ft"
    modReduc := some ⟨[1000, 1778, 3162, 5623, 10000, 17780, 31620, 56230, 100000, 177800, 316200, 562300, 1000000,
      1778000, 3162000, 5623000, 10000000],
      [100000, 100000, 100000, 99900, 99300, 97900, 95200, 90300, 83000, 73300, 61700, 48800, 36600, 25800, 17300,
        10800, 6600]⟩
    damping := some ⟨[1000, 1778, 3162, 5623, 10000, 17780, 31620, 56230, 100000, 177800, 316200, 562300, 1000000,
      1778000, 3162000, 5623000, 10000000],
      [1142, 1196, 1250, 1304, 1469, 1670, 2074, 2658, 3622, 5066, 7069, 9569, 12500, 15688, 19004, 22022, 24699]⟩ },
  { name := "EPRI (93), 50-120 ft"
    modReduc := some ⟨[1000, 1778, 3162, 5623, 10000, 17780, 31620, 56230, 100000, 177800, 316200, 562300, 1000000,
      1778000, 3162000, 5623000, 10000000],
      [100000, 100000, 100000, 99900, 99800, 98800, 97000, 93400, 87800, 79700, 69100, 56700, 44400, 32800, 22500,
        14500, 9200]⟩
    damping := some ⟨[1000, 1778, 3162, 5623, 10000, 17780, 31620, 56230, 100000, 177800, 316200, 562300, 1000000,
      1778000, 3162000, 5623000, 10000000],
      [1000, 982, 978, 1122, 1165, 1371, 1610, 2046, 2830, 3901, 5493, 7662, 10381, 13383, 16643, 19766, 22580]⟩ },
  { name := "EPRI (93), 120-250 ft"
    modReduc := some ⟨[1000, 1778, 3162, 5623, 10000, 17780, 31620, 56230, 100000, 177800, 316200, 562300, 1000000,
      1778000, 3162000, 5623000, 10000000],
      [100000, 100000, 100000, 99900, 99900, 99400, 97900, 95400, 90900, 84000, 74700, 63100, 50700, 38400, 27400,
        18200, 11800]⟩
    damping := some ⟨[1000, 1778, 3162, 5623, 10000, 17780, 31620, 56230, 100000, 177800, 316200, 562300, 1000000,
      1778000, 3162000, 5623000, 10000000],
      [857, 839, 821, 880, 1006, 1125, 1341, 1629, 2198, 3131, 4460, 6281, 8686, 11573, 14770, 17879, 20906]⟩ },
  { name := "EPRI (93), 250-500 ft"
    modReduc := some ⟨[1000, 1778, 3162, 5623, 10000, 17780, 31620, 56230, 100000, 177800, 316200, 562300, 1000000,
      1778000, 3162000, 5623000, 10000000],
      [100000, 100000, 100000, 99900, 99900, 99900, 98600, 96800, 93400, 87900, 79900, 69600, 57500, 44900, 33200,
        23000, 14800]⟩
    damping := some ⟨[1000, 1778, 3162, 5623, 10000, 17780, 31620, 56230, 100000, 177800, 316200, 562300, 1000000,
      1778000, 3162000, 5623000, 10000000],
      [786, 792, 799, 811, 867, 950, 1081, 1344, 1774, 2515, 3520, 5077, 7206, 9853, 12839, 15972, 19072]⟩ },
  { name := "EPRI (93), 500-1000 ft"
    modReduc := some ⟨[1000, 1778, 3162, 5623, 10000, 17780, 31620, 56230, 100000, 177800, 316200, 562300, 1000000,
      1778000, 3162000, 5623000, 10000000],
      [100000, 100000, 100000, 100000, 100000, 100000, 99500, 98200, 96000, 91500, 85000, 76500, 66000, 53200,
        41000, 29700, 20000]⟩
    damping := some ⟨[1000, 1778, 3162, 5623, 10000, 17780, 31620, 56230, 100000, 177800, 316200, 562300, 1000000,
      1778000, 3162000, 5623000, 10000000],
      [492, 554, 607, 589, 643, 696, 772, 983, 1234, 1735, 2562, 3696, 5408, 7617, 10428, 13524, 16459]⟩ },
  { name := "GEI (83), 0-50 ft"
    modReduc := some ⟨[1000, 3162, 10000, 31620, 100000, 316200, 1000000, 3162000, 10000000, 31620000, 100000000],
      [100000, 99000, 98000, 91000, 78000, 56000, 33000, 16000, 6500, 4000, 4000]⟩
    damping := some ⟨[1000, 3162, 10000, 31620, 100000, 316200, 1000000, 3162000, 10000000, 31620000, 100000000],
      [1500, 1500, 1500, 1750, 3850, 7750, 13100, 18750, 23000, 26000, 26000]⟩ },
  { name := "GEI (83), 50-100 ft"
    modReduc := some ⟨[1000, 3162, 10000, 31620, 100000, 316200, 1000000, 3162000, 10000000, 31620000, 100000000],
      [100000, 99000, 98000, 93500, 81600, 61000, 36000, 17500, 6500, 4000, 4000]⟩
    damping := some ⟨[1000, 3162, 10000, 31620, 100000, 316200, 1000000, 3162000, 10000000, 31620000, 100000000],
      [1500, 1500, 1500, 1600, 3150, 6500, 11750, 17750, 22500, 25600, 25600]⟩ },
  { name := "GEI (83), 100-250 ft"
    modReduc := some ⟨[1000, 3162, 10000, 31620, 100000, 316200, 1000000, 3162000, 10000000, 31620000, 100000000],
      [100000, 99000, 98000, 94700, 85200, 67000, 42500, 20000, 6500, 4000, 4000]⟩
    damping := some ⟨[1000, 3162, 10000, 31620, 100000, 316200, 1000000, 3162000, 10000000, 31620000, 100000000],
      [1500, 1500, 1500, 1500, 2500, 5000, 10000, 16500, 22000, 25400, 25400]⟩ },
  { name := "GEI (83), 250-500 ft"
    modReduc := some ⟨[1000, 3162, 10000, 31620, 100000, 316200, 1000000, 3162000, 10000000, 31620000, 100000000],
      [100000, 99500, 99000, 96500, 89000, 72500, 49500, 24000, 8000, 4000, 4000]⟩
    damping := some ⟨[1000, 3162, 10000, 31620, 100000, 316200, 1000000, 3162000, 10000000, 31620000, 100000000],
      [1500, 1500, 1500, 1500, 2100, 3750, 8250, 14750, 20500, 24250, 24250]⟩ },
  { name := "GEI (83), >500 ft"
    modReduc := some ⟨[1000, 3162, 10000, 31620, 100000, 316200, 1000000, 3162000, 10000000, 31620000, 100000000],
      [100000, 100000, 100000, 98500, 92500, 77500, 56500, 30000, 10000, 4000, 4000]⟩
    damping := some ⟨[1000, 3162, 10000, 31620, 100000, 316200, 1000000, 3162000, 10000000, 31620000, 100000000],
      [1500, 1500, 1500, 1500, 1750, 2500, 6250, 13000, 19000, 23100, 23100]⟩ },
  { name := "GeoMatrix (1990), 0-50 ft"
    modReduc := some ⟨[1000, 3162, 10000, 31620, 100000, 316200, 1000000, 3162000, 10000000, 31620000, 100000000],
      [100000, 99100, 98500, 94300, 85400, 68800, 45400, 25900, 10000, 5200, 5200]⟩
    damping := some ⟨[1000, 3162, 10000, 31620, 100000, 316200, 1000000, 3162000, 10000000, 31620000, 100000000],
      [2100, 2100, 2500, 2500, 3730, 6560, 11230, 15980, 21090, 24110, 24110]⟩ },
  { name := "GeoMatrix (1990), 50-150 ft"
    modReduc := some ⟨[1000, 3162, 10000, 31620, 100000, 316200, 1000000, 3162000, 10000000, 31620000, 100000000],
      [100000, 99800, 99900, 97500, 90000, 76700, 53600, 31900, 13400, 5200, 5200]⟩
    damping := some ⟨[1000, 3162, 10000, 31620, 100000, 316200, 1000000, 3162000, 10000000, 31620000, 100000000],
      [1500, 1500, 1520, 1950, 2950, 4730, 8570, 13070, 18590, 24110, 24110]⟩ },
  { name := "GeoMatrix (1990), >150 ft"
    modReduc := some ⟨[1000, 3162, 10000, 31620, 100000, 316200, 1000000, 3162000, 10000000, 31620000, 100000000],
      [100000, 100000, 100000, 99900, 93900, 82600, 62000, 38100, 16200, 5200, 5200]⟩
    damping := none },
  { name := "GeoMatrix (1990), 150-300 ft"
    modReduc := none
    damping := some ⟨[1000, 3162, 10000, 31620, 100000, 316200, 1000000, 3162000, 10000000, 31620000, 100000000],
      [1500, 1500, 1520, 1680, 2250, 3220, 6190, 10270, 15660, 24110, 24110]⟩ },
  { name := "GeoMatrix (1990), >300 ft"
    modReduc := none
    damping := some ⟨[1000, 3162, 10000, 31620, 100000, 316200, 1000000, 3162000, 10000000, 31620000, 100000000],
      [960, 980, 1010, 1010, 1070, 1560, 4150, 7840, 12080, 17840, 17840]⟩ },
  { name := "Idriss (1990), Clay"
    modReduc := some ⟨[1000, 3162, 10000, 31620, 100000, 316200, 1000000, 3162000, 10000000, 31620000, 100000000],
      [100000, 100000, 100000, 97900, 94100, 83900, 65600, 42900, 23800, 23800, 23800]⟩
    damping := some ⟨[1000, 3162, 10000, 31620, 100000, 316200, 1000000, 3162000, 10000000, 31620000, 100000000],
      [240, 440, 800, 1460, 2800, 5310, 9800, 15740, 21000, 21000, 21000]⟩ },
  { name := "Idriss (1990), Sand"
    modReduc := some ⟨[1000, 3162, 10000, 31620, 100000, 316200, 1000000, 3162000, 10000000, 31620000, 100000000],
      [100000, 100000, 99000, 95500, 85000, 62800, 37000, 17600, 8000, 8000, 8000]⟩
    damping := some ⟨[1000, 3162, 10000, 31620, 100000, 316200, 1000000, 3162000, 10000000, 31620000, 100000000],
      [240, 440, 800, 1460, 2800, 5310, 9800, 15740, 21000, 21000, 21000]⟩ },
  { name := "Imperial Valley Soils, 0-300 ft"
    modReduc := some ⟨[1000, 3162, 10000, 31620, 100000, 316200, 1000000, 3162000, 10000000],
      [100000, 100000, 100000, 100000, 97300, 90400, 69900, 45900, 24700]⟩
    damping := some ⟨[1000, 3162, 10000, 31620, 100000, 316200, 1000000, 3162000, 10000000],
      [950, 950, 950, 950, 1220, 2030, 4060, 7980, 12040]⟩ },
  { name := "Imperial Valley Soils, >300 ft"
    modReduc := some ⟨[1000, 3162, 10000, 31620, 100000, 316200, 1000000, 3162000, 10000000],
      [100000, 100000, 100000, 100000, 98600, 95200, 76700, 54100, 32900]⟩
    damping := some ⟨[1000, 3162, 10000, 31620, 100000, 316200, 1000000, 3162000, 10000000],
      [540, 540, 540, 540, 540, 950, 2710, 5950, 9870]⟩ },
  { name := "Iwasaki, 0.25 atm"
    modReduc := some ⟨[1000, 3160, 10000, 31600, 100000, 316000, 1000000, 3160000, 10000000],
      [100000, 98000, 93000, 85000, 72000, 49000, 23000, 8000, 3000]⟩
    damping := none },
  { name := "Iwasaki, 1.0 atm"
    modReduc := some ⟨[1000, 3160, 10000, 31600, 100000, 316000, 1000000, 3160000, 10000000],
      [100000, 100000, 97000, 92000, 83000, 65000, 39000, 17000, 7000]⟩
    damping := none },
  { name := "Peninsular Range, Cohesionless 0-50 ft"
    modReduc := some ⟨[1000, 3162, 10000, 31620, 100000, 316200, 1000000, 3162000, 10000000],
      [100000, 100000, 100000, 96300, 86800, 67700, 42700, 22100, 8800]⟩
    damping := some ⟨[1000, 3162, 10000, 31620, 100000, 316200, 1000000, 3162000, 10000000],
      [1060, 1060, 1210, 1660, 2880, 5600, 10590, 16650, 23000]⟩ },
  { name := "Peninsular Range, Cohesionless 50-500 ft"
    modReduc := some ⟨[1000, 3162, 10000, 31620, 100000, 316200, 1000000, 3162000, 10000000],
      [100000, 100000, 100000, 98500, 94100, 84600, 64700, 40400, 19100]⟩
    damping := some ⟨[1000, 3162, 10000, 31620, 100000, 316200, 1000000, 3162000, 10000000],
      [600, 600, 600, 910, 1210, 2580, 5450, 10590, 16650]⟩ },
  { name := "Seed & Idriss, Sand Mean"
    modReduc := some ⟨[1000, 3160, 10000, 31600, 100000, 316000, 1000000, 3160000, 10000000],
      [100000, 99000, 96000, 88000, 74000, 52000, 29000, 15000, 6000]⟩
    damping := some ⟨[1000, 3160, 10000, 31600, 100000, 316000, 1000000, 3160000, 10000000],
      [570, 860, 1700, 3100, 5500, 9500, 15500, 21100, 24600]⟩ },
  { name := "Seed & Idriss, Sand Upper"
    modReduc := some ⟨[1000, 3160, 10000, 31600, 100000, 316000, 1000000, 3160000, 10000000],
      [100000, 100000, 99000, 94000, 84000, 65000, 36000, 19000, 8000]⟩
    damping := none },
  { name := "Seed & Idriss, Sand Lower"
    modReduc := none
    damping := some ⟨[1000, 3160, 10000, 31600, 100000, 316000, 1000000, 3160000, 10000000],
      [500, 600, 800, 1400, 2800, 5300, 10000, 15800, 21500]⟩ }]

end Verif.Published
