import Verif.InterpolationTemplate
import Mathlib.Data.Rat.Floor

/-!
# Validation of the model: the project's own tests, run on the model

The data, points and reference values are those of test/src/bspline-test.cpp and test/src/interpolation-test.cpp; the decimal numbers are taken as rationals and
the model computes exactly. The reference values come from another program (Mathematica), as the comments in the tests say.  The tests measure the relative error in
the Euclidean norm and compare it with `tol`; so do the checks here, with the same `tol`.  These are tests of the model, not of its properties.
-/

namespace Intp.TestSuite

/-- `rel_err(...) < tol` (test/src/include/rel_err.hpp; bspline-test.cpp:14), squared; the lists must have the same length. -/
def close (tol : ℚ) (f : List ℚ) (vals : List ℚ) : Bool :=
  f.length = vals.length &&
  decide (((f.zip vals).map fun p => (p.1 - p.2) * (p.1 - p.2)).sum < tol * tol * (vals.map fun v => v * v).sum)

/-- Every value computed, and close to the reference values. -/
def passes (tol : ℚ) (m : M (List ℚ)) (vals : List ℚ) : Bool :=
  match m with
  | .ok f => close tol f vals
  | .error _ => false

/-- Every value computed, each within `tol` of the reference value. -/
def within (tol : ℚ) (m : M (List ℚ)) (vals : List ℚ) : Bool :=
  match m with
  | .ok f => f.length = vals.length && (f.zip vals).all fun p => decide (|p.1 - p.2| < tol)
  | .error _ => false

/-- Build with assertions; the data of a periodic dimension end with a dummy point (the default, README.md:57). -/
def cfg : Cfg := ⟨true, false⟩

/-- Build with assertions and without dummy points (test/CMakeLists.txt:46). -/
def cfgN : Cfg := ⟨true, true⟩

/-! ## bspline-test.cpp -/

namespace Spline

/-- bspline-test.cpp:49 -/
def knots : List ℚ := [
   0, 0, 0, 0, 1/2, 1, 1, 1, 1]

/-- bspline-test.cpp:50 -/
def cp : List ℚ := [
   1, 16/3, (-16/3), 4/3, 3]

/-- bspline-test.cpp:57-61 -/
def coords1 : List (Fin 1 → ℚ) := [
   ![4560373422725581/10000000000000000], ![1111008712915417/1250000000000000], ![4461098353789361/100000000000000000],
   ![5439456019541871/10000000000000000], ![532230619202863/1000000000000000], ![5153105562793239/10000000000000000],
   ![10673076352488109/50000000000000000], ![8993837286502737/100000000000000000], ![10464388871007013/50000000000000000],
   ![11139302362905723/100000000000000000]]

/-- bspline-test.cpp:63-67 -/
def vals1 : List ℚ := [
   (-6452391969741351/10000000000000000), 1706781268175239/1000000000000000, 19389729439006869/10000000000000000,
   (-2918310171859313/2500000000000000), (-1426215705912727/1250000000000000), (-1079846126512429/1000000000000000),
   2942172255298473/1250000000000000, 12407822094619787/5000000000000000, 596809294327857/250000000000000, 3264563815840611/1250000000000000]

/-- bspline-test.cpp:245-249 -/
def vals1d1 : List ℚ := [
   (-992272407143533/100000000000000), 12667321048785523/1000000000000000, 3263787761910801/200000000000000,
   (-8538762454226141/5000000000000000), (-5595209296294093/2000000000000000), (-22207288190930887/5000000000000000),
   (-8212957569324931/1000000000000000), 1963042890571543/250000000000000, (-7837502772245249/1000000000000000),
   1081510709425471/250000000000000]

/-- bspline-test.cpp:250-254 -/
def vals1d2 : List ℚ := [
   58169604693093/781250000000, (-3988203727856039/500000000000000), (-20202141906253547/100000000000000), 2283591665929853/25000000000000,
   2367939541739387/25000000000000, 4979527989577737/50000000000000, (-442769269112799/5000000000000), (-4289035335867539/25000000000000),
   (-2283965339341643/25000000000000), (-15714388812127353/100000000000000)]

/-- bspline-test.cpp:82-86 -/
def cp2 : List ℚ := [
   (-4), (-4), 4, 1, 1, 0, 2, (-2), 0, 5, 5, (-4), (-4), (-3), (-5), (-2), 4, 2, 2, (-3), 1, 0, 5, (-3), 5]

/-- bspline-test.cpp:100-110 -/
def coords2 : List (Fin 2 → ℚ) := [
   ![24900413132933563/500000000000000000, 1722530221224651/2000000000000000],
   ![17991110941937/31250000000000, 5153782982448287/10000000000000000],
   ![10277921753185959/200000000000000000, 10318265350015987/50000000000000000],
   ![212887091390333/625000000000000, 262363550773063/400000000000000],
   ![6562156301169633/10000000000000000, 1307456768899773/2500000000000000],
   ![7065591320791091/10000000000000000, 9008965381489409/50000000000000000],
   ![5929532206588517/10000000000000000, 15110486908892717/1000000000000000000],
   ![8934362484479541/25000000000000000, 554230493148117/2000000000000000],
   ![2424190945603777/50000000000000000, 4622224628096363/5000000000000000],
   ![1217609543941511/1250000000000000, 9174673912595357/10000000000000000]]

/-- bspline-test.cpp:113-117 -/
def vals2 : List ℚ := [
   6501281044989017/5000000000000000, (-9049532347293099/10000000000000000), (-3928769402984923/2500000000000000),
   (-13555951852638821/10000000000000000), (-1221109513046997/6250000000000000), 3946573752956113/5000000000000000,
   13459399154210203/10000000000000000, (-1917680379191209/2500000000000000), 1495128187689829/1000000000000000,
   7581120597034161/5000000000000000]

/-- bspline-test.cpp:219 -/
def knots2 : List ℚ := [
   (-3/5), (-2/5), (-1/5), 0, 1/5, 2/5, 3/5, 4/5, 1, 6/5, 7/5, 8/5]

/-- bspline-test.cpp:224-228 -/
def vals2p : List ℚ := [
   (-12113458915683677/5000000000000000), (-4166742741109567/2500000000000000), 1292431192225407/1000000000000000,
   3709482463566993/5000000000000000, (-2044747328976313/1250000000000000), 32021767652671507/100000000000000000,
   (-99265989669239/5000000000000000), (-8364238083636709/5000000000000000), (-2414215484638793/1000000000000000),
   59374877424617/80000000000000]

/-- bspline-test.cpp:295-299 -/
def vals2d20 : List ℚ := [
   (-6418140090609639/100000000000000), 16803496913693323/500000000000000, (-9740128619523041/100000000000000),
   4027561307446061/100000000000000, 928340750029671/100000000000000, (-3967029367180187/500000000000000),
   (-188479259558713/7812500000000), 463955588039777/31250000000000, (-284833254040349/2500000000000), 615839440380243/20000000000000]

/-- bspline-test.cpp:300-304 -/
def vals2d11 : List ℚ := [
   4437251955055249/50000000000000, (-4238681068935503/1000000000000000), (-2042895576215147/25000000000000),
   (-740376361081399/100000000000000), (-2016561741403803/250000000000000), 9462450191847563/200000000000000,
   4569527530451957/50000000000000, (-5133760384951443/500000000000000), 17047557272187/160000000000, 25325136807731457/100000000000000]

/-- bspline-test.cpp:336-340 -/
def vals2p11 : List ℚ := [
   2604798749355747/250000000000000, (-701462889009971/15625000000000), (-6796918096244443/100000000000000),
   3212862769973423/50000000000000, (-6193051664833237/250000000000000), (-5667565671444081/1000000000000000),
   3905723974033617/100000000000000, (-359262722883769/62500000000000), (-924856514332901/25000000000000),
   (-10422161375710107/100000000000000)]

/-- bspline-test.cpp:131-155, part 1 -/
def cp3_1 : List ℚ := [
   (-4), (-4), (-4), (-2), (-5), (-4), 0, (-5), 5, 4, 4, (-5), (-3), 5, (-4), 3, 4, 0, (-3), (-1), (-5), 2, 1, (-5), (-2), 5, 4, (-3),
   (-5), 5, 2, (-3), 0, 1, 4]

/-- bspline-test.cpp:131-155, part 2 -/
def cp3_2 : List ℚ := [
   5, 0, (-4), 3, (-1), 2, (-2), 3, 0, 2, (-1), 1, (-4), (-3), (-2), (-1), 3, (-1), 2, 2, (-1), (-5), (-3), (-5), (-1), 3, (-3), (-5), 2,
   0, 2, 1, 1, 3, 3]

/-- bspline-test.cpp:131-155, part 3 -/
def cp3_3 : List ℚ := [
   2, 2, 4, 4, (-1), (-4), 0, 2, (-5), 2, (-2), (-3), 1, 2, (-2), 4, (-4), 5, (-3), 0, (-4), (-5), 3, (-4), 2, 2, (-4), (-2), 1, 5, (-3),
   2, 1, 0, (-2)]

/-- bspline-test.cpp:131-155, part 4 -/
def cp3_4 : List ℚ := [
   2, 3, 2, (-5), 5, (-1), 2, 3, 0, (-5), 1, 2, (-1), 1, (-1), 0, (-1), 5, 5, 4]

/-- bspline-test.cpp:131-155 -/
def cp3 : List ℚ := cp3_1 ++ cp3_2 ++ cp3_3 ++ cp3_4

/-- bspline-test.cpp:172-192 -/
def coords3 : List (Fin 3 → ℚ) := [
   ![6771169667756889/10000000000000000, 4607891368919057/5000000000000000, 4073093854149159/10000000000000000],
   ![698381052234959/1250000000000000, 13830437926457517/50000000000000000, 240470091311487/500000000000000],
   ![22166100919838327/100000000000000000, 20423034083657687/100000000000000000, 273126484826403/400000000000000],
   ![236529325069761/250000000000000, 55900299856571/80000000000000, 247072048940419/250000000000000],
   ![6657135834502097/10000000000000000, 3181164723633243/5000000000000000, 1219727446875721/2000000000000000],
   ![2415860336027581/5000000000000000, 4449885480903437/100000000000000000, 431767490408963/4000000000000000],
   ![985441570595591/50000000000000000, 176876893315507/250000000000000, 960531887246811/2500000000000000],
   ![2708700179218677/10000000000000000, 9968009386232979/10000000000000000, 1556831934890671/2000000000000000],
   ![8727841712767681/25000000000000000, 37498001215861887/100000000000000000, 5313335523213891/10000000000000000],
   ![1957834480573843/2500000000000000, 3523807977438491/10000000000000000, 5616443755053859/10000000000000000],
   ![2825918723648767/5000000000000000, 1760901952491507/5000000000000000, 3766317887491841/10000000000000000],
   ![21469117477088573/50000000000000000, 1608031881083949/50000000000000000, 1128555418286713/5000000000000000],
   ![2660366291611549/5000000000000000, 2563335748568327/10000000000000000, 4284182446681921/10000000000000000],
   ![6877274915223719/25000000000000000, 159109371277287/400000000000000, 1851687484510811/2500000000000000],
   ![2645390059243993/10000000000000000, 1090982933535671/1250000000000000, 8960358519530291/10000000000000000],
   ![8338988630403117/10000000000000000, 1396684585918383/5000000000000000, 6474522893994397/10000000000000000],
   ![359314624259377/20000000000000000, 1764265436462837/2000000000000000, 5764188908600809/250000000000000000],
   ![14762287164611443/50000000000000000, 7820003453674633/10000000000000000, 1953107714234823/10000000000000000],
   ![13561436852684283/50000000000000000, 25287173944081087/500000000000000000, 2142508021250279/2500000000000000],
   ![832045277248823/2500000000000000, 22075349315084103/100000000000000000, 7955065113795101/10000000000000000]]

/-- bspline-test.cpp:195-202 -/
def vals3 : List ℚ := [
   (-105025065984557/625000000000000), (-15184595156006049/10000000000000000), (-386331180633207/625000000000000),
   (-305387979976813/400000000000000), (-2214392918654437/20000000000000000), 7296952363190009/20000000000000000,
   (-13606044311702267/100000000000000000), (-266596201285787/250000000000000), (-2606079360304141/2000000000000000),
   (-1366609994525347/10000000000000000), (-1845924629958203/1000000000000000), 3875070831428903/5000000000000000,
   (-3474861078959123/2000000000000000), 1278576545692187/10000000000000000, 6293890623364669/50000000000000000,
   (-8137217220725601/50000000000000000), (-974670381388677/20000000000000000), 2225270029062017/20000000000000000,
   (-12114378448383767/50000000000000000), (-35239496660939207/100000000000000000)]

/-- `tol` (bspline-test.cpp:45) -/
def tol : ℚ := 1 / 10 ^ 15

/-- Values at points. -/
def run {D : ℕ} (per : Fin D → Bool) (ctrl : Mesh D ℚ) (kn : Fin D → List ℚ) (xs : List (Fin D → ℚ)) : M (List ℚ) := do
  let g ← BSpline.ofParts cfg 3 per ctrl kn
  xs.mapM g.evalAt

/-- Derivatives at points. -/
def runD {D : ℕ} (per : Fin D → Bool) (ctrl : Mesh D ℚ) (kn : Fin D → List ℚ) (m : Fin D → ℕ) (xs : List (Fin D → ℚ)) : M (List ℚ) := do
  let g ← BSpline.ofParts cfg 3 per ctrl kn
  xs.mapM fun x => g.derivativeAt' cfg fun d => (x d, m d)

/-- 1D (bspline-test.cpp:70-74). -/
example : (passes tol (run ![false] ⟨![5], cp⟩ ![knots] coords1) vals1) = true := by decide +kernel

/-- 2D (119-123). -/
example : (passes tol (run ![false, false] ⟨![5, 5], cp2⟩ ![knots, knots] coords2) vals2) = true := by decide +kernel

/-- 3D (204-210). -/
example : (passes tol (run ![false, false, false] ⟨![5, 5, 5], cp3⟩ ![knots, knots, knots] coords3) vals3) = true := by decide +kernel

/-- 2D, second dimension periodic (230-236). -/
example : (passes tol (run ![false, true] ⟨![5, 5], cp2⟩ ![knots, knots2] coords2) vals2p) = true := by decide +kernel

/-- Derivative of order 0 (255-262). -/
example : (passes tol (runD ![false] ⟨![5], cp⟩ ![knots] ![0] coords1) vals1) = true := by decide +kernel

/-- First derivative (267-274). -/
example : (passes tol (runD ![false] ⟨![5], cp⟩ ![knots] ![1] coords1) vals1d1) = true := by decide +kernel

/-- Second derivative (279-286). -/
example : (passes tol (runD ![false] ⟨![5], cp⟩ ![knots] ![2] coords1) vals1d2) = true := by decide +kernel

/-- Derivative of orders 2, 0 (306-315). -/
example : (passes tol (runD ![false, false] ⟨![5, 5], cp2⟩ ![knots, knots] ![2, 0] coords2) vals2d20) = true := by decide +kernel

/-- Derivative of orders 1, 1 (320-329). -/
example : (passes tol (runD ![false, false] ⟨![5, 5], cp2⟩ ![knots, knots] ![1, 1] coords2) vals2d11) = true := by decide +kernel

/-- Derivative of orders 1, 1 with a periodic dimension (342-351). -/
example : (passes tol (runD ![false, true] ⟨![5, 5], cp2⟩ ![knots, knots2] ![1, 1] coords2) vals2p11) = true := by decide +kernel

end Spline

/-! ## interpolation-test.cpp -/

namespace Interp

/-- interpolation-test.cpp:20-22 -/
def f : List ℚ := [
   181103/200000, 447319/500000, (-216567/500000), 43131/100000, (-32763/250000), 131487/500000, 26493/62500, (-562671/1000000),
   (-915567/1000000), (-261017/1000000), (-9583/20000), (-469663/50000000), (-222981/500000)]

/-- interpolation-test.cpp:31-35 -/
def coordsHalf : List (Fin 1 → ℚ) := [
   ![1968791374707961/1000000000000000], ![11698556147523931/50000000000000000], ![4183162505803409/1000000000000000],
   ![5744438451300649/1000000000000000], ![322817339924379/1000000000000000], ![5431730686042901/1000000000000000],
   ![12745684388796121/10000000000000000], ![10669598772870703/50000000000000000], ![957590255990321/625000000000000],
   ![32082735276673/50000000000000]]

/-- interpolation-test.cpp:38-42 -/
def coords1 : List (Fin 1 → ℚ) := [
   ![1968791374707961/500000000000000], ![46794224590095723/100000000000000000], ![4183162505803409/500000000000000],
   ![5744438451300649/500000000000000], ![322817339924379/500000000000000], ![10863461372085801/1000000000000000],
   ![25491368777592243/10000000000000000], ![4267839509148281/10000000000000000], ![3064288819169027/1000000000000000],
   ![32082735276673/25000000000000]]

/-- interpolation-test.cpp:57-61 -/
def vals1 : List ℚ := [
   (-40401094299129/390625000000000), 14404772594187227/10000000000000000, (-6740383362867217/10000000000000000),
   14761231077334569/250000000000000000, 13546807267401677/10000000000000000, (-4042107553500097/50000000000000000),
   1725408002459637/100000000000000000, 225227310040561/156250000000000, 111043951017913/250000000000000,
   19761439588874827/50000000000000000]

/-- interpolation-test.cpp:345-350 -/
def vals1p : List ℚ := [
   (-9762254647017743/100000000000000000), 9131255920729/7812500000000, (-6682906902062101/10000000000000000),
   44128062499073417/100000000000000000, 363837937901507/312500000000000, (-3120466050534803/25000000000000000),
   (-445415461594469/100000000000000000), 1159234754035029/1000000000000000, 4508845136779133/10000000000000000,
   5745888520371073/12500000000000000]

/-- interpolation-test.cpp:433-437 -/
def vals1d1 : List ℚ := [
   (-513729823961817/500000000000000), (-2932507186882773/12500000000000000), 203294939805293/125000000000000,
   (-5964266359199579/10000000000000000), (-2043100785709421/1250000000000000), 2841304151205033/2500000000000000,
   2451880834458231/1000000000000000, 14293981479176837/100000000000000000, 3312259646708457/20000000000000000,
   (-22387821262527/6250000000000)]

/-- interpolation-test.cpp:449-453 -/
def vals1pd1 : List ℚ := [
   (-5956189309592923/10000000000000000), 3775848880444661/20000000000000000, 205885523275269/250000000000000,
   1884767591628917/2000000000000000, (-321853687358189/1250000000000000), 1628324356376289/2000000000000000,
   1297682043678497/1000000000000000, 2748905754634491/10000000000000000, 1267431837706319/6250000000000000, (-6815342335403/3906250000000)]

/-- interpolation-test.cpp:517-529 -/
def inputCoords : List ℚ := [
   0, 369938743632727/400000000000000, 1135111243573113/500000000000000, 1749402329608737/500000000000000,
   7506083635690791/2000000000000000, 1197825717665523/250000000000000, 506693199311499/80000000000000, 1408385392623681/200000000000000,
   3806236268902941/500000000000000, 9034787492568283/1000000000000000, 403130299407539/40000000000000, 5720486581760647/500000000000000, 12]

/-- interpolation-test.cpp:553-557 -/
def vals1n : List ℚ := [
   (-1140514443107873/2500000000000000), 2694218845985751/2000000000000000, (-3039689677767149/5000000000000000),
   (-16699918339397407/1000000000000000000), 12453576785633913/10000000000000000, (-17792750766792387/100000000000000000),
   326719299033701/6250000000000000, 3382668307645959/2500000000000000, 219461953835971/250000000000000, 13713841345242117/50000000000000000]

/-- interpolation-test.cpp:608-612 -/
def vals1np : List ℚ := [
   (-892960639897597/2000000000000000), 192162228582997/156250000000000, (-6268441539418139/10000000000000000),
   850067674507349/12500000000000000, 11730724308997087/10000000000000000, (-243028390298043/400000000000000),
   10783428431572137/50000000000000000000, 767794262725041/625000000000000, 4026163189727659/5000000000000000,
   188233312824841/625000000000000]

/-- interpolation-test.cpp:108-118 -/
def f2 : List ℚ := [
   1149376591802711/10000000000000000, 183493245939911/500000000000000, 8706293477610783/10000000000000000,
   17772634451308633/50000000000000000, 5618622985788111/10000000000000000, 628221302184849/3125000000000000,
   (-7027399540128183/20000000000000000), 3459158000280991/10000000000000000, (-6411854570589961/10000000000000000),
   (-462137722534381/500000000000000), 152397847865271/2500000000000000, (-4931987876206343/5000000000000000),
   870214198764977/1250000000000000, 4200090739620159/5000000000000000, 3758703506622121/10000000000000000,
   (-424837286617997/500000000000000), 7037626673100483/10000000000000000, 5167482535099701/10000000000000000,
   (-961602882417603/1000000000000000), 9016008505150341/10000000000000000, (-7763245335851283/10000000000000000),
   729592963642911/1000000000000000, (-2930712462722811/5000000000000000), (-438516560034069/1250000000000000),
   3537868335081493/5000000000000000]

/-- interpolation-test.cpp:142-146 -/
def vals2 : List ℚ := [
   (-5407817111102959/10000000000000000), 362095496763579/500000000000000, 25189765520792373/100000000000000000,
   (-7395786597332359/5000000000000000), 11465605774177101/10000000000000000, 3098484329528253/10000000000000000,
   5464869245836507/10000000000000000, 474466547034479/10000000000000000, (-2627939411942719/2500000000000000),
   551194819940399/2000000000000000]

/-- interpolation-test.cpp:408-412 -/
def vals2p : List ℚ := [
   (-2728219707735409/5000000000000000), 1452243696614159/2000000000000000, 10788861105479011/50000000000000000,
   (-1031245867624211/625000000000000), 306005404977183/250000000000000, 17484968588244637/50000000000000000,
   5845798304532657/10000000000000000, 1437961565367429/5000000000000000, (-7370284980435109/5000000000000000),
   129107607415123/500000000000000]

/-- interpolation-test.cpp:472-476 -/
def vals2d21 : List ℚ := [
   (-7543201698562789/10000000000000000), 7386529487473519/1000000000000000, 14374808443975349/10000000000000000,
   15013232428628703/1000000000000000000, 820329769263771/2000000000000000, 3989275680682247/10000000000000000,
   (-6484678461334411/5000000000000000), (-15362984946961473/5000000000000000), (-6851774312512691/2000000000000000),
   43843555890798447/100000000000000000]

/-- interpolation-test.cpp:636-637 -/
def coordsFor2 : List ℚ := [
   0, 1329905262345947/1000000000000000, 1100143322600113/500000000000000, 7800706809453879/2500000000000000, 4]

/-- interpolation-test.cpp:657-661 -/
def vals2pn : List ℚ := [
   (-7160424002258807/10000000000000000), 6702846215275077/10000000000000000, 4933393138376427/100000000000000000,
   (-24154978688392473/50000000000000000), 3811309952541869/5000000000000000, 1149700252547319/4000000000000000,
   4762197211423307/10000000000000000, (-2924876444803407/10000000000000000), (-2677645171281183/50000000000000000),
   8938131323971249/100000000000000000]

/-- interpolation-test.cpp:129-139 -/
def coords2 : List (Fin 2 → ℚ) := [
   ![1747275211687041/625000000000000, 8351297380348077/50000000000000000],
   ![7310459306300121/50000000000000000, 90287416750899/50000000000000], ![7301525810403/8000000000000, 1617752882497217/1000000000000000],
   ![34743760585635837/10000000000000000, 808868518472021/250000000000000],
   ![16409975907153913/5000000000000000, 12227470066832273/10000000000000000],
   ![5291168485873591/2000000000000000, 5015852323292627/2000000000000000],
   ![24398083528195187/10000000000000000, 26353068861468163/10000000000000000],
   ![1953210318714551/5000000000000000, 876694320836803/2000000000000000],
   ![925534269644877/250000000000000, 1683119515857479/500000000000000],
   ![5415908911017957/5000000000000000, 8828344400427013/5000000000000000]]

/-- `tol` (interpolation-test.cpp:16) -/
def tol : ℚ := 1 / 10 ^ 14

/-- The data of the 1D functions: in a periodic dimension without dummy point the last value is left out (312-313). -/
def data (c : Cfg) (per : Bool) : List ℚ := if c.noDummy && per then f.dropLast else f

/-- `InterpolationFunction1D<o>(range, f)`, values at points. -/
def run1 (c : Cfg) (o : ℕ) (per : Bool) (x : XRange ℚ) (xs : List (Fin 1 → ℚ)) : M (List ℚ) := do
  let g ← InterpFn.construct1 c o per (data c per) x
  xs.mapM g.call

/-- `derivative_at` of `InterpolationFunction1D<o>(range, f)`. -/
def run1D (c : Cfg) (o : ℕ) (per : Bool) (x : XRange ℚ) (m : ℕ) (xs : List (Fin 1 → ℚ)) : M (List ℚ) := do
  let g ← InterpFn.construct1 c o per (data c per) x
  xs.mapM fun x => g.derivativeAt c x ![m]

/-- `InterpolationFunction<double, D, 3>(per, mesh, ranges...)`, values at points. -/
def run {D : ℕ} (c : Cfg) (per : Fin (D + 1) → Bool) (fm : Mesh (D + 1) ℚ) (x : Fin (D + 1) → XRange ℚ) (xs : List (Fin (D + 1) → ℚ)) : M (List ℚ) := do
  let g ← InterpFn.construct c 3 per fm x
  xs.mapM g.call

/-- The same with `at`. -/
def runAt {D : ℕ} (c : Cfg) (per : Fin (D + 1) → Bool) (fm : Mesh (D + 1) ℚ) (x : Fin (D + 1) → XRange ℚ) (xs : List (Fin (D + 1) → ℚ)) : M (List ℚ) := do
  let g ← InterpFn.construct c 3 per fm x
  xs.mapM g.at'

/-- The same with `derivative_at`. -/
def runD {D : ℕ} (c : Cfg) (per : Fin (D + 1) → Bool) (fm : Mesh (D + 1) ℚ) (x : Fin (D + 1) → XRange ℚ) (m : Fin (D + 1) → ℕ)
    (xs : List (Fin (D + 1) → ℚ)) : M (List ℚ) := do
  let g ← InterpFn.construct c 3 per fm x
  xs.mapM fun x => g.derivativeAt c x m

/-- The error of a computation. -/
def err? (m : M (List ℚ)) : Option Err :=
  match m with
  | .ok _ => none
  | .error e => some e

/-- `f2d_periodic_y` (390-395): the last column left out. -/
def f2y : List ℚ := (List.range 5).flatMap fun i => (f2.drop (5 * i)).take 4

/-- `f2d_periodic_x` (640-645): the last row left out. -/
def f2x : List ℚ := f2.take 20

/-- The integers 0, …, 12, the coordinates of the data. -/
def grid : List ℚ := (List.range 13).map (↑)

/-- Linear interpolation between the data points at the given coordinates, as the test computes it (48-50, 543-549; periodic: 338-339, 598-604). -/
def linear (xs : List ℚ) (per : Bool) (x : ℚ) : ℚ :=
  let i := (xs.filter (· < x)).length - 1
  let v := f.getD i 0
  let w := f.getD (if per && i + 1 == 12 then 0 else i + 1) 0
  v + (w - v) * (x - xs.getD i 0) / (xs.getD (i + 1) 0 - xs.getD i 0)

/-- Order 0 (interpolation-test.cpp:65-67): the datum at the rounded coordinate. -/
example : (passes tol (run1 cfg 0 false (.uniform 0 12) coords1) (coords1.map fun x => f.getD ⌊x 0 + 1 / 2⌋.toNat 0)) = true := by decide +kernel

/-- Order 1 (74-76). -/
example : (passes tol (run1 cfg 1 false (.uniform 0 12) coords1) (coords1.map fun x => linear grid false (x 0))) = true := by decide +kernel

/-- Order 3 (83-85). -/
example : (passes tol (run1 cfg 3 false (.uniform 0 6) coordsHalf) vals1) = true := by decide +kernel

/-- Extrapolation (92-97). -/
example : (within tol (run1 cfg 3 false (.uniform 0 6) [![-1/2], ![13/2]]) [-6.3167718907512755, -4.508470210464194]) = true := by decide +kernel

/-- Order 1, periodic (361-363); with dummy point. -/
example : (passes tol (run1 cfg 1 true (.uniform 0 12) coords1) (coords1.map fun x => linear grid true (x 0))) = true := by decide +kernel

/-- Order 1, periodic (361-363); without. -/
example : (passes tol (run1 cfgN 1 true (.uniform 0 12) coords1) (coords1.map fun x => linear grid true (x 0))) = true := by decide +kernel

/-- Order 4, periodic (370-372); with dummy point. -/
example : (passes tol (run1 cfg 4 true (.uniform 0 12) coords1) vals1p) = true := by decide +kernel

/-- Order 4, periodic (370-372); without. -/
example : (passes tol (run1 cfgN 4 true (.uniform 0 12) coords1) vals1p) = true := by decide +kernel

/-- Periodic, one period to the left and to the right (379-384); with dummy point. -/
example : (within tol (run1 cfg 4 true (.uniform 0 12) [fun _ => (coords1.headD 0) 0 - 12, fun _ => (coords1.headD 0) 0 + 12]) [vals1p.getD 0 0, vals1p.getD 0 0]) = true := by decide +kernel

/-- Periodic, one period to the left and to the right (379-384); without. -/
example : (within tol (run1 cfgN 4 true (.uniform 0 12) [fun _ => (coords1.headD 0) 0 - 12, fun _ => (coords1.headD 0) 0 + 12]) [vals1p.getD 0 0, vals1p.getD 0 0]) = true := by decide +kernel

/-- First derivative (439-442). -/
example : (passes tol (run1D cfg 3 false (.uniform 0 6) 1 coordsHalf) vals1d1) = true := by decide +kernel

/-- First derivative, periodic (455-461); with dummy point. -/
example : (passes tol (run1D cfg 4 true (.uniform 0 12) 1 coords1) vals1pd1) = true := by decide +kernel

/-- First derivative, periodic (455-461); without. -/
example : (passes tol (run1D cfgN 4 true (.uniform 0 12) 1 coords1) vals1pd1) = true := by decide +kernel

/-- Order 1 over explicit coordinates (559-561). -/
example : (passes tol (run1 cfg 1 false (.coords inputCoords) coords1) (coords1.map fun x => linear inputCoords false (x 0))) = true := by decide +kernel

/-- Order 3 over explicit coordinates (568-570). -/
example : (passes tol (run1 cfg 3 false (.coords inputCoords) coords1) vals1n) = true := by decide +kernel

/-- Order 1 over explicit periodic coordinates (614-616); with dummy point. -/
example : (passes tol (run1 cfg 1 true (.coords inputCoords) coords1) (coords1.map fun x => linear inputCoords true (x 0))) = true := by decide +kernel

/-- Order 1 over explicit periodic coordinates (614-616); without. -/
example : (passes tol (run1 cfgN 1 true (.coords inputCoords) coords1) (coords1.map fun x => linear inputCoords true (x 0))) = true := by decide +kernel

/-- Order 4 over explicit periodic coordinates (623-625); with dummy point. -/
example : (passes tol (run1 cfg 4 true (.coords inputCoords) coords1) vals1np) = true := by decide +kernel

/-- Order 4 over explicit periodic coordinates (623-625); without. -/
example : (passes tol (run1 cfgN 4 true (.coords inputCoords) coords1) vals1np) = true := by decide +kernel

/-- 2D (151-152). -/
example : (passes tol (run cfg ![false, false] ⟨![5, 5], f2⟩ ![.uniform 0 4, .uniform 0 4] coords2) vals2) = true := by decide +kernel

/-- 2D, `at(-1, 1)` throws (160). -/
example : (err? (runAt cfg ![false, false] ⟨![5, 5], f2⟩ ![.uniform 0 4, .uniform 0 4] [![-1, 1]]) == some .domainError) = true := by decide +kernel

/-- 2D, second dimension periodic (414-416); with dummy point. -/
example : (passes tol (run cfg ![false, true] ⟨![5, 5], f2⟩ ![.uniform 0 4, .uniform 0 4] coords2) vals2p) = true := by decide +kernel

/-- 2D, second dimension periodic (414-416); without. -/
example : (passes tol (run cfgN ![false, true] ⟨![5, 4], f2y⟩ ![.uniform 0 4, .uniform 0 4] coords2) vals2p) = true := by decide +kernel

/-- 2D, derivative of orders 2, 1 (478-483). -/
example : (passes tol (runD cfg ![false, false] ⟨![5, 5], f2⟩ ![.uniform 0 4, .uniform 0 4] ![2, 1] coords2) vals2d21) = true := by decide +kernel

/-- 2D, first dimension periodic, second with explicit coordinates (663-665); with dummy point. -/
example : (passes tol (run cfg ![true, false] ⟨![5, 5], f2⟩ ![.uniform 0 4, .coords coordsFor2] coords2) vals2pn) = true := by decide +kernel

/-- 2D, first dimension periodic, second with explicit coordinates (663-665); without. -/
example : (passes tol (run cfgN ![true, false] ⟨![4, 5], f2x⟩ ![.uniform 0 4, .coords coordsFor2] coords2) vals2pn) = true := by decide +kernel

/-- Order 0, periodic; without dummy point, the configuration of test/CMakeLists.txt (314, 352-354). -/
example : (passes tol (run1 cfgN 0 true (.uniform 0 12) coords1) (coords1.map fun x => f.getD ⌊x 0 + 1 / 2⌋.toNat 0)) = true := by decide +kernel

/-- Order 0, periodic; with dummy point.  The test has `InterpolationFunction1D<1>` there (325) and compares a function of order 1 with values of order 0: it fails in this configuration, in the model as well. -/
example : (!passes tol (run1 cfg 1 true (.uniform 0 12) coords1) (coords1.map fun x => f.getD ⌊x 0 + 1 / 2⌋.toNat 0)) = true := by decide +kernel

end Interp

end Intp.TestSuite
