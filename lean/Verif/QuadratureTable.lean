import Verif.StatsProps

/-!
# The Peano kernel of the fifty point Gauss-Legendre rule, scaled to integers

Helper computations for C93.  The Peano kernel of the tables in stats/gauss_legendre.hpp is evaluated at the
centres of 200 cells.  `Verif.QuadratureKernel` says what the numbers mean.
-/

namespace Albatross

/-- `glWeightsNum` beside `glPointsNum + 10 ^ 32`, as natural numbers. -/
def quadTable : List (ℕ × ℕ) :=
  [(6217661665534726232103310736061, 96890166167281112388767101033405),
   (6217661665534726232103310736061, 103109833832718887611232898966595),
   (6193606742068324338408750978083, 90682529843991385914554962236040),
   (6193606742068324338408750978083, 109317470156008614085445037763960),
   (6145589959031666375640678608392, 84510941000185409792837137905889),
   (6145589959031666375640678608392, 115489058999814590207162862094111),
   (6073797084177021603175001538481, 78399276312395824315271546738290),
   (6073797084177021603175001538481, 121600723687604175684728453261710),
   (5978505870426545750957640531259, 72371180622046800967235472147887),
   (5978505870426545750957640531259, 127628819377953199032764527852113),
   (5860084981322244583512243663085, 66449975458056264316301174270893),
   (5860084981322244583512243663085, 133550024541943735683698825729107),
   (5718992564772838372302931506599, 60658568810243487260577074617618),
   (5718992564772838372302931506599, 139341431189756512739422925382382),
   (5555774480621251762356742561227, 55019366502596121085286853222162),
   (5555774480621251762356742561227, 144980633497403878914713146777838),
   (5371062188899624652345879725566, 49554185509253579834854086815086),
   (5371062188899624652345879725566, 150445814490746420165145913184914),
   (5165570306958113848990529584010, 44284169548534994568447709037420),
   (5165570306958113848990529584010, 155715830451465005431552290962580),
   (4940093844946631492124358075143, 39229707281504976081961820360817),
   (4940093844946631492124358075143, 160770292718495023918038179639183),
   (4695505130394843296563301363499, 34410353431456063921837513599632),
   (4695505130394843296563301363499, 165589646568543936078162486400368),
   (4432750433880327549202228683039, 29844753129317774891045374211634),
   (4432750433880327549202228683039, 170155246870682225108954625788366),
   (4152846309014769742241197896407, 25550569777393146173946374731781),
   (4152846309014769742241197896407, 174449430222606853826053625268219),
   (3856875661258767524477015023639, 21544416709960073609469480365901),
   (3856875661258767524477015023639, 178455583290039926390530519634099),
   (3545983561514615416073461100098, 17841792914066405164374588912606),
   (3545983561514615416073461100098, 182158207085933594835625411087394),
   (3221372822357801664816582732300, 14457023057005391538863735606524),
   (3221372822357801664816582732300, 185542976942994608461136264393476),
   (2884299358053519802990637311323, 11403202047638695136245901753325),
   (2884299358053519802990637311323, 188596797952361304863754098246675),
   (2536067357001239044019487838544, 8692144334420810691026435722834),
   (2536067357001239044019487838544, 191307855665579189308973564277166),
   (2178024317012479298159206906269, 6334338105512206621912505272750),
   (2178024317012479298159206906269, 193665661894487793378087494727250),
   (1811556071348939035125994342235, 4338904475719205700225435584338),
   (1811556071348939035125994342235, 195661095524280794299774564415662),
   (1438082276148557441937890892732, 2713561489330792628665589539375),
   (1438082276148557441937890892732, 197286438510669207371334410460625),
   (1059054838365096926356968149924, 1464591595199411769099037436751),
   (1059054838365096926356968149924, 198535408404800588230900962563249),
   (675979919574540150277887817799, 596803056790928741489179957931),
   (675979919574540150277887817799, 199403196943209071258510820042069),
   (290862255315514095840072434286, 113359557992894981454055502578),
   (290862255315514095840072434286, 199886640442007105018545944497422)]

theorem quadTable_eq : glWeightsNum.zip glPointsNum =
    quadTable.map fun x => ((x.1 : ℤ), (x.2 : ℤ) - 10 ^ 32) := by decide +kernel

/-- The absolute value of the Peano kernel of order `m + 1` at `u / 200 - 1`, times `(m + 1)! (200 * 10 ^ 32) ^ (m + 1)`. -/
def quadKernel (m u : ℕ) : ℕ :=
  let s := (m + 1) * 200 * (quadTable.map fun x => x.1 * (200 * x.2 - u * 10 ^ 32) ^ m).sum
  let r := ((400 - u) * 10 ^ 32) ^ (m + 1)
  (s - r) + (r - s)

/-- A bound of the kernel on the cell around `u / 200 - 1`, scaled in the same way. -/
def quadCell (u : ℕ) : ℕ → ℕ
  | 0 => 1000 * 10 ^ 32
  | m + 1 => quadKernel (m + 1) u + (m + 2) * 10 ^ 32 * quadCell u m

theorem quadCell_succ (u m : ℕ) :
    quadCell u (m + 1) = quadKernel (m + 1) u + (m + 2) * 10 ^ 32 * quadCell u m := rfl

theorem quadCell_8 : ∀ j < 200, quadCell (2 * j + 1) 8 * 10 ^ 18 ≤ 5 * 362880 * (200 * 10 ^ 32) ^ 9 := by
  decide +kernel

theorem quadCell_13 : ∀ j < 200, quadCell (2 * j + 1) 13 * 10 ^ 28 ≤ 3 * 87178291200 * (200 * 10 ^ 32) ^ 14 := by
  decide +kernel

theorem quadCell_18 : ∀ j < 200, quadCell (2 * j + 1) 18 * 10 ^ 38 ≤
    3 * 121645100408832000 * (200 * 10 ^ 32) ^ 19 := by
  decide +kernel

end Albatross
