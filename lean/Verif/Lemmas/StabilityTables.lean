/-! Numbers for the stability of interpolation: integers only, so that the kernel evaluates them quickly. -/

namespace Verif.Lemmas

/-- Distance. -/
def gap (m t : Nat) : Nat := (m - t) + (t - m)

/-- At least the distance of any point within `w` of `m` from any point within 1 of `t`. -/
def reach (w m t : Nat) : Nat := gap m t + (w + 1)

/-- The product over the points. -/
def reachAll (w m : Nat) (ap : List (Nat × Nat)) : Nat := (ap.map fun p => reach w m p.1).foldr (· * ·) 1

/-- At least 10000 times the sum of the absolute values of the basis functions within `w` of `m`.  In `ap` are the points and the products of
their distances from the others. -/
def valueCell (w m : Nat) (ap : List (Nat × Nat)) : Nat :=
  (ap.map fun p => reachAll w m ap * 10000 / (reach w m p.1 * p.2) + 1).sum

/-- At least 10^12 times the sum of the reciprocals. -/
def reciprocals (w m : Nat) (ap : List (Nat × Nat)) : Nat := (ap.map fun p => 1000000000000 / reach w m p.1 + 1).sum

/-- At least 10000 times the sum of the magnitudes of the derivatives, for distances in millionths. -/
def gradientCell (w m : Nat) (ap : List (Nat × Nat)) : Nat :=
  (ap.map fun p => reachAll w m ap * (reciprocals w m ap - (1000000000000 / reach w m p.1 + 1)) / (reach w m p.1 * p.2 * 100) + 1).sum

/-- The points are increasing, and the products are those of slightly smaller distances. -/
def fits (ap : List (Nat × Nat)) : Bool :=
  decide ((ap.map Prod.fst).Pairwise fun a b => a + 3 ≤ b) &&
    ap.all fun p => p.2 == (ap.map fun r => if r.1 = p.1 then 1 else gap p.1 r.1 - 2).foldr (· * ·) 1

/-- The bound holds for 1000 cells that cover the interval from 0 to 2000000. -/
def valuesFit (ap : List (Nat × Nat)) (bound : Nat) : Bool :=
  (List.range 1000).all fun i => Nat.ble (valueCell 1000 (1000 * (2 * i + 1)) ap) bound

/-- The bound holds for 1000 cells that cover the interval from 0 to 2000000. -/
def gradientsFit (ap : List (Nat × Nat)) (bound : Nat) : Bool :=
  (List.range 1000).all fun i => Nat.ble (gradientCell 1000 (1000 * (2 * i + 1)) ap) bound

def equal1Points : List (Nat × Nat) :=
  [(0, 1999998), (2000000, 1999998)]

def equal2Points : List (Nat × Nat) :=
  [(0, 1999994000004), (1000000, 999996000004), (2000000, 1999994000004)]

def equal3Points : List (Nat × Nat) :=
  [(0, 1777768444459777770), (666667, 592587703716370360), (1333333, 592587703716370360), (2000000, 1777768444459777770)]

def equal4Points : List (Nat × Nat) :=
  [(0, 1499987500034999960000016), (500000, 374995750016999972000016), (1000000, 249997000012999976000016), (1500000, 374995750016999972000016), (2000000, 1499987500034999960000016)]

def equal5Points : List (Nat × Nat) :=
  [(0, 1228785971257599891200095999968), (400000, 245756211221759942400070399968), (800000, 122877952013055960320057599968), (1200000, 122877952013055960320057599968), (1600000, 245756211221759942400070399968), (2000000, 1228785971257599891200095999968)]

def equal6Points : List (Nat × Nat) :=
  [(0, 987639259342345456420064814596172900), (333333, 164606172858353849958943950541399200), (666667, 65842222233983488798469678875917760), (1000000, 49381580257049337802574678886172900), (1333333, 65842222233983488798469678875917760), (1666667, 164606172858353849958943950541399200), (2000000, 987639259342345456420064814596172900)]

def equal7Points : List (Nat × Nat) :=
  [(0, 783332589481044309118445142150535720786560), (285714, 111904342306580727532815964236767208700800), (571429, 37301247251115548600032841868859246441600), (857143, 22380685684223711607485680570093576829440), (1142857, 22380685684223711607485680570093576829440), (1428571, 37301247251115548600032841868859246441600), (1714286, 111904342306580727532815964236767208700800), (2000000, 783332589481044309118445142150535720786560)]

def equal8Points : List (Nat × Nat) :=
  [(0, 615220998162229943095153060232002183998848000256), (250000, 76902086451367032023983061359001399999072000256), (500000, 21971961923105405422136186849000959999232000256), (750000, 10985966313558556648603062047000743999328000256), (1000000, 8788769535332000156392062100000679999360000256), (1250000, 10985966313558556648603062047000743999328000256), (1500000, 21971961923105405422136186849000959999232000256), (1750000, 76902086451367032023983061359001399999072000256), (2000000, 615220998162229943095153060232002183998848000256)]

def lobatto1Points : List (Nat × Nat) :=
  [(0, 1999998), (2000000, 1999998)]

def lobatto2Points : List (Nat × Nat) :=
  [(0, 1999994000004), (1000000, 999996000004), (2000000, 1999994000004)]

def lobatto3Points : List (Nat × Nat) :=
  [(0, 1599989676424723584), (552786, 715536898699828608), (1447214, 715536898699828608), (2000000, 1599989676424723584)]

def lobatto4Points : List (Nat × Nat) :=
  [(0, 1142844852033443968561152), (345346, 489790368471380159635456), (1000000, 428567526828749860964416), (1654654, 489790368471380159635456), (2000000, 1142844852033443968561152)]

def lobatto5Points : List (Nat × Nat) :=
  [(0, 761894015262527245956036739560), (234945, 319763405830970507940717712020), (714768, 264093598883089231346880012600), (1285232, 264093598883089231346880012600), (1765055, 319763405830970507940717712020), (2000000, 761894015262527245956036739560)]

def lobatto6Points : List (Nat × Nat) :=
  [(0, 484837914018012606321639206562060336), (169776, 201086324152112479040097015557063088), (531151, 161018109214293478481151676923309088), (1000000, 151512694161318835939458081929572624), (1468849, 161018109214293478481151676923309088), (1830224, 201086324152112479040097015557063088), (2000000, 484837914018012606321639206562060336)]

def lobatto7Points : List (Nat × Nat) :=
  [(0, 298360392961834942863740516368506521587104), (128260, 122835455075400564058797832363212181411104), (408300, 96540087183525706292347179581161799706144), (790701, 87795716586814080845615153359815008339052), (1209299, 87795716586814080845615153359815008339052), (1591700, 96540087183525706292347179581161799706144), (1871740, 122835455075400564058797832363212181411104), (2000000, 298360392961834942863740516368506521587104)]

def lobatto8Points : List (Nat × Nat) :=
  [(0, 179014721206476533915100899439810214603289395200), (100242, 73340373926126217737875815593223499159990732800), (322814, 56942700945320370709142105381887540003975987200), (636883, 50691319095185529035372465927063195386207675800), (1000000, 48949642205460705971857232427372222533133926400), (1363117, 50691319095185529035372465927063195386207675800), (1677186, 56942700945320370709142105381887540003975987200), (1899758, 73340373926126217737875815593223499159990732800), (2000000, 179014721206476533915100899439810214603289395200)]

def legendre1Points : List (Nat × Nat) :=
  [(422650, 1154698), (1577350, 1154698)]

def legendre2Points : List (Nat × Nat) :=
  [(225403, 1199996377240), (1000000, 599997414025), (1774597, 1199996377240)]

def legendre3Points : List (Nat × Nat) :=
  [(138864, 1078080199059700650), (660019, 425630947617176200), (1339981, 425630947617176200), (1861136, 1078080199059700650)]

theorem equal1_fits : fits equal1Points = true := by decide +kernel

theorem equal1_values : valuesFit equal1Points 10100 = true := by decide +kernel

theorem equal1_gradients : gradientsFit equal1Points 10100 = true := by decide +kernel

theorem equal2_fits : fits equal2Points = true := by decide +kernel

theorem equal2_values : valuesFit equal2Points 12600 = true := by decide +kernel

theorem equal2_gradients : gradientsFit equal2Points 40100 = true := by decide +kernel

theorem equal3_fits : fits equal3Points = true := by decide +kernel

theorem equal3_values : valuesFit equal3Points 16400 = true := by decide +kernel

theorem equal3_gradients : gradientsFit equal3Points 100300 = true := by decide +kernel

theorem equal4_fits : fits equal4Points = true := by decide +kernel

theorem equal4_values : valuesFit equal4Points 22300 = true := by decide +kernel

theorem equal4_gradients : gradientsFit equal4Points 214400 = true := by decide +kernel

theorem equal5_fits : fits equal5Points = true := by decide +kernel

theorem equal5_values : valuesFit equal5Points 31500 = true := by decide +kernel

theorem equal5_gradients : gradientsFit equal5Points 429900 = true := by decide +kernel

theorem equal6_fits : fits equal6Points = true := by decide +kernel

theorem equal6_values : valuesFit equal6Points 46200 = true := by decide +kernel

theorem equal6_gradients : gradientsFit equal6Points 841000 = true := by decide +kernel

theorem equal7_fits : fits equal7Points = true := by decide +kernel

theorem equal7_values : valuesFit equal7Points 70700 = true := by decide +kernel

theorem equal7_gradients : gradientsFit equal7Points 1634000 = true := by decide +kernel

theorem equal8_fits : fits equal8Points = true := by decide +kernel

theorem equal8_values : valuesFit equal8Points 112100 = true := by decide +kernel

theorem equal8_gradients : gradientsFit equal8Points 3178000 = true := by decide +kernel

theorem lobatto1_fits : fits lobatto1Points = true := by decide +kernel

theorem lobatto1_values : valuesFit lobatto1Points 10100 = true := by decide +kernel

theorem lobatto1_gradients : gradientsFit lobatto1Points 10100 = true := by decide +kernel

theorem lobatto2_fits : fits lobatto2Points = true := by decide +kernel

theorem lobatto2_values : valuesFit lobatto2Points 12600 = true := by decide +kernel

theorem lobatto2_gradients : gradientsFit lobatto2Points 40100 = true := by decide +kernel

theorem lobatto3_fits : fits lobatto3Points = true := by decide +kernel

theorem lobatto3_values : valuesFit lobatto3Points 15100 = true := by decide +kernel

theorem lobatto3_gradients : gradientsFit lobatto3Points 91200 = true := by decide +kernel

theorem lobatto4_fits : fits lobatto4Points = true := by decide +kernel

theorem lobatto4_values : valuesFit lobatto4Points 16500 = true := by decide +kernel

theorem lobatto4_gradients : gradientsFit lobatto4Points 164100 = true := by decide +kernel

theorem lobatto5_fits : fits lobatto5Points = true := by decide +kernel

theorem lobatto5_values : valuesFit lobatto5Points 18000 = true := by decide +kernel

theorem lobatto5_gradients : gradientsFit lobatto5Points 259500 = true := by decide +kernel

theorem lobatto6_fits : fits lobatto6Points = true := by decide +kernel

theorem lobatto6_values : valuesFit lobatto6Points 19000 = true := by decide +kernel

theorem lobatto6_gradients : gradientsFit lobatto6Points 378100 = true := by decide +kernel

theorem lobatto7_fits : fits lobatto7Points = true := by decide +kernel

theorem lobatto7_values : valuesFit lobatto7Points 20000 = true := by decide +kernel

theorem lobatto7_gradients : gradientsFit lobatto7Points 520600 = true := by decide +kernel

theorem lobatto8_fits : fits lobatto8Points = true := by decide +kernel

theorem lobatto8_values : valuesFit lobatto8Points 20800 = true := by decide +kernel

theorem lobatto8_gradients : gradientsFit lobatto8Points 687600 = true := by decide +kernel

theorem legendre1_fits : fits legendre1Points = true := by decide +kernel

theorem legendre1_values : valuesFit legendre1Points 17400 = true := by decide +kernel

theorem legendre1_gradients : gradientsFit legendre1Points 17400 = true := by decide +kernel

theorem legendre2_fits : fits legendre2Points = true := by decide +kernel

theorem legendre2_values : valuesFit legendre2Points 23400 = true := by decide +kernel

theorem legendre2_gradients : gradientsFit legendre2Points 66700 = true := by decide +kernel

theorem legendre3_fits : fits legendre3Points = true := by decide +kernel

theorem legendre3_values : valuesFit legendre3Points 28600 = true := by decide +kernel

theorem legendre3_gradients : gradientsFit legendre3Points 159700 = true := by decide +kernel

end Verif.Lemmas
