import Verif.Fp.Format

/-!
# Gauss–Legendre tables (quadrature/gauss_legendre_30.hpp, quadrature/gauss_legendre_50.hpp)

The `long double` literals of the headers as exact rationals.
-/

namespace Gcem

/-- quadrature/gauss_legendre_30.hpp:25-57 -/
def gauss_legendre_30_points : List ℚ :=
  [-0.05147184255531769583302521316672,
   0.05147184255531769583302521316672,
   -0.15386991360858354696379467274326,
   0.15386991360858354696379467274326,
   -0.25463692616788984643980512981781,
   0.25463692616788984643980512981781,
   -0.35270472553087811347103720708937,
   0.35270472553087811347103720708937,
   -0.44703376953808917678060990032285,
   0.44703376953808917678060990032285,
   -0.53662414814201989926416979331107,
   0.53662414814201989926416979331107,
   -0.62052618298924286114047755643119,
   0.62052618298924286114047755643119,
   -0.69785049479331579693229238802664,
   0.69785049479331579693229238802664,
   -0.76777743210482619491797734097450,
   0.76777743210482619491797734097450,
   -0.82956576238276839744289811973250,
   0.82956576238276839744289811973250,
   -0.88256053579205268154311646253023,
   0.88256053579205268154311646253023,
   -0.92620004742927432587932427708047,
   0.92620004742927432587932427708047,
   -0.96002186496830751221687102558180,
   0.96002186496830751221687102558180,
   -0.98366812327974720997003258160566,
   0.98366812327974720997003258160566,
   -0.99689348407464954027163005091870,
   0.99689348407464954027163005091870]

/-- quadrature/gauss_legendre_30.hpp:59-91 -/
def gauss_legendre_30_weights : List ℚ :=
  [0.10285265289355884034128563670542,
   0.10285265289355884034128563670542,
   0.10176238974840550459642895216855,
   0.10176238974840550459642895216855,
   0.09959342058679526706278028210357,
   0.09959342058679526706278028210357,
   0.09636873717464425963946862635181,
   0.09636873717464425963946862635181,
   0.09212252223778612871763270708762,
   0.09212252223778612871763270708762,
   0.08689978720108297980238753071513,
   0.08689978720108297980238753071513,
   0.08075589522942021535469493846053,
   0.08075589522942021535469493846053,
   0.07375597473770520626824385002219,
   0.07375597473770520626824385002219,
   0.06597422988218049512812851511596,
   0.06597422988218049512812851511596,
   0.05749315621761906648172168940206,
   0.05749315621761906648172168940206,
   0.04840267283059405290293814042281,
   0.04840267283059405290293814042281,
   0.03879919256962704959680193644635,
   0.03879919256962704959680193644635,
   0.02878470788332336934971917961129,
   0.02878470788332336934971917961129,
   0.01846646831109095914230213191205,
   0.01846646831109095914230213191205,
   0.00796819249616660561546588347467,
   0.00796819249616660561546588347467]

/-- quadrature/gauss_legendre_50.hpp:25-77 -/
def gauss_legendre_50_points : List ℚ :=
  [-0.03109833832718887611232898966595,
   0.03109833832718887611232898966595,
   -0.09317470156008614085445037763960,
   0.09317470156008614085445037763960,
   -0.15489058999814590207162862094111,
   0.15489058999814590207162862094111,
   -0.21600723687604175684728453261710,
   0.21600723687604175684728453261710,
   -0.27628819377953199032764527852113,
   0.27628819377953199032764527852113,
   -0.33550024541943735683698825729107,
   0.33550024541943735683698825729107,
   -0.39341431189756512739422925382382,
   0.39341431189756512739422925382382,
   -0.44980633497403878914713146777838,
   0.44980633497403878914713146777838,
   -0.50445814490746420165145913184914,
   0.50445814490746420165145913184914,
   -0.55715830451465005431552290962580,
   0.55715830451465005431552290962580,
   -0.60770292718495023918038179639183,
   0.60770292718495023918038179639183,
   -0.65589646568543936078162486400368,
   0.65589646568543936078162486400368,
   -0.70155246870682225108954625788366,
   0.70155246870682225108954625788366,
   -0.74449430222606853826053625268219,
   0.74449430222606853826053625268219,
   -0.78455583290039926390530519634099,
   0.78455583290039926390530519634099,
   -0.82158207085933594835625411087394,
   0.82158207085933594835625411087394,
   -0.85542976942994608461136264393476,
   0.85542976942994608461136264393476,
   -0.88596797952361304863754098246675,
   0.88596797952361304863754098246675,
   -0.91307855665579189308973564277166,
   0.91307855665579189308973564277166,
   -0.93665661894487793378087494727250,
   0.93665661894487793378087494727250,
   -0.95661095524280794299774564415662,
   0.95661095524280794299774564415662,
   -0.97286438510669207371334410460625,
   0.97286438510669207371334410460625,
   -0.98535408404800588230900962563249,
   0.98535408404800588230900962563249,
   -0.99403196943209071258510820042069,
   0.99403196943209071258510820042069,
   -0.99886640442007105018545944497422,
   0.99886640442007105018545944497422]

/-- quadrature/gauss_legendre_50.hpp:79-131 -/
def gauss_legendre_50_weights : List ℚ :=
  [0.06217661665534726232103310736061,
   0.06217661665534726232103310736061,
   0.06193606742068324338408750978083,
   0.06193606742068324338408750978083,
   0.06145589959031666375640678608392,
   0.06145589959031666375640678608392,
   0.06073797084177021603175001538481,
   0.06073797084177021603175001538481,
   0.05978505870426545750957640531259,
   0.05978505870426545750957640531259,
   0.05860084981322244583512243663085,
   0.05860084981322244583512243663085,
   0.05718992564772838372302931506599,
   0.05718992564772838372302931506599,
   0.05555774480621251762356742561227,
   0.05555774480621251762356742561227,
   0.05371062188899624652345879725566,
   0.05371062188899624652345879725566,
   0.05165570306958113848990529584010,
   0.05165570306958113848990529584010,
   0.04940093844946631492124358075143,
   0.04940093844946631492124358075143,
   0.04695505130394843296563301363499,
   0.04695505130394843296563301363499,
   0.04432750433880327549202228683039,
   0.04432750433880327549202228683039,
   0.04152846309014769742241197896407,
   0.04152846309014769742241197896407,
   0.03856875661258767524477015023639,
   0.03856875661258767524477015023639,
   0.03545983561514615416073461100098,
   0.03545983561514615416073461100098,
   0.03221372822357801664816582732300,
   0.03221372822357801664816582732300,
   0.02884299358053519802990637311323,
   0.02884299358053519802990637311323,
   0.02536067357001239044019487838544,
   0.02536067357001239044019487838544,
   0.02178024317012479298159206906269,
   0.02178024317012479298159206906269,
   0.01811556071348939035125994342235,
   0.01811556071348939035125994342235,
   0.01438082276148557441937890892732,
   0.01438082276148557441937890892732,
   0.01059054838365096926356968149924,
   0.01059054838365096926356968149924,
   0.00675979919574540150277887817799,
   0.00675979919574540150277887817799,
   0.00290862255315514095840072434286,
   0.00290862255315514095840072434286]

end Gcem
