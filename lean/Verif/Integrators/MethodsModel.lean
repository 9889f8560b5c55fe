import Verif.Integrators.MultistepModel

/-!
The coefficients of the methods: integrators/methods.hpp and integrators/cohen_hubbard_oesterwinter_body.hpp.

The coefficients are the numbers that are written in the source.  In the code they are rounded to the nearest double, which is not modelled.
-/

namespace Principia.Integrators

/-- integrators/methods.hpp:95-118 (`SymplecticRungeKuttaNyström`).  The coefficients are multiples of the inverse of `denominator`; there are as many of them as there are stages. -/
structure SymplecticTable where
  order : ℕ
  timeReversible : Bool
  composition : Composition
  a : List ℤ
  b : List ℤ
  denominator : ℕ

/-- integrators/methods.hpp:120-133 (`SymplecticPartitionedRungeKutta`). -/
structure PartitionedTable where
  order : ℕ
  timeReversible : Bool
  firstSameAsLast : Bool
  a : List ℤ
  b : List ℤ
  denominator : ℕ

/-- integrators/methods.hpp:166-173 (`Shift`): the element of index `i` is that of index `i - 1`, modulo the number of stages. -/
def shift (a : List ℤ) : List ℤ := (List.range a.length).map fun i => a.getD ((i + a.length - 1) % a.length) 0

/-- integrators/methods.hpp:135-186 (`AsSymplecticRungeKuttaNyström`). -/
def PartitionedTable.as (t : PartitionedTable) (composition : Composition) : SymplecticTable where
  order := t.order
  timeReversible := t.timeReversible
  composition := composition
  a := match composition with | .ABA => t.b | _ => t.a
  b := match composition with | .ABA => shift t.a | _ => t.b
  denominator := t.denominator

/-- integrators/symplectic_runge_kutta_nyström_integrator.hpp, where the coefficients of the integrator are those of the method. -/
noncomputable def SymplecticTable.method (t : SymplecticTable) : SRKN where
  timeReversible := t.timeReversible
  composition := t.composition
  stages := t.b.length
  a i := (t.a.getD i 0 : ℝ) / t.denominator
  b i := (t.b.getD i 0 : ℝ) / t.denominator

/-- integrators/methods.hpp:72-82 (`ExplicitRungeKutta`); the rows of `a` are those of a strictly lower triangular matrix. -/
structure RungeKuttaTable where
  order : ℕ
  stages : ℕ
  firstSameAsLast : Bool
  c : List ℚ
  a : List (List ℚ)
  b : List ℚ

/-- integrators/explicit_runge_kutta_integrator.hpp, where the coefficients of the integrator are those of the method. -/
noncomputable def RungeKuttaTable.method (t : RungeKuttaTable) : ERK where
  stages := t.stages
  firstSameAsLast := t.firstSameAsLast
  a i j := (((t.a.getD i []).getD j 0 : ℚ) : ℝ)
  b i := ((t.b.getD i 0 : ℚ) : ℝ)
  c i := ((t.c.getD i 0 : ℚ) : ℝ)

/-- integrators/methods.hpp:19-29 (`EmbeddedExplicitRungeKutta`). -/
structure EmbeddedTable where
  higherOrder : ℕ
  lowerOrder : ℕ
  stages : ℕ
  firstSameAsLast : Bool
  c : List ℚ
  a : List (List ℚ)
  bHat : List ℚ
  b : List ℚ

/-- integrators/methods.hpp:31-43 (`EmbeddedExplicitRungeKuttaNyström`). -/
structure NystromTable where
  higherOrder : ℕ
  lowerOrder : ℕ
  stages : ℕ
  firstSameAsLast : Bool
  c : List ℚ
  a : List (List ℚ)
  bHat : List ℚ
  bHat' : List ℚ
  b : List ℚ
  b' : List ℚ

/-- integrators/methods.hpp:45-62 (`EmbeddedExplicitGeneralizedRungeKuttaNyström`). -/
structure GeneralizedNystromTable extends NystromTable where
  a' : List (List ℚ)

/-- integrators/methods.hpp:64-70 (`ExplicitLinearMultistep`). -/
structure MultistepTable where
  order : ℕ
  steps : ℕ
  α : List ℚ
  βNumerator : List ℚ
  βDenominator : ℚ

/-- integrators/explicit_linear_multistep_integrator.hpp, where the coefficients of the integrator are those of the method.  The elements of the arrays which are not given are zero. -/
noncomputable def MultistepTable.method (t : MultistepTable) : ELMS where
  steps := t.steps
  α i := ((t.α.getD i 0 : ℚ) : ℝ)
  βNumerator i := ((t.βNumerator.getD i 0 : ℚ) : ℝ)
  βDenominator := (t.βDenominator : ℝ)

/-- integrators/methods.hpp:84-93 (`SymmetricLinearMultistep`), and the corresponding constants for the velocity. -/
structure SymmetricTable where
  order : ℕ
  α : List ℚ
  βNumerator : List ℚ
  βDenominator : ℚ
  cohenHubbardOesterwinter : List ℚ × ℚ

/-- integrators/symmetric_linear_multistep_integrator.hpp, where the coefficients of the integrator are those of the method. -/
noncomputable def SymmetricTable.method (t : SymmetricTable) : SLMS where
  order := t.order
  α i := ((t.α.getD i 0 : ℚ) : ℝ)
  βNumerator i := ((t.βNumerator.getD i 0 : ℚ) : ℝ)
  βDenominator := (t.βDenominator : ℝ)
  choNumerators i := ((t.cohenHubbardOesterwinter.1.getD i 0 : ℚ) : ℝ)
  choDenominator := (t.cohenHubbardOesterwinter.2 : ℝ)

namespace Methods

/-! ### The symplectic methods -/

/-- integrators/methods.hpp:269-291 (`BlanesMoan2002S6`). -/
def blanesMoan2002S6 : PartitionedTable where
  order := 4
  timeReversible := true
  firstSameAsLast := true
  a := [209515106613362000, -143851773179818000, 434336666566456000, 434336666566456000, -143851773179818000, 209515106613362000, 0]
  b := [79203696431195700, 353172906049774000, -42065080357719500, 219376955753499600, -42065080357719500, 353172906049774000, 79203696431195700]
  denominator := 10 ^ 18

/-- integrators/methods.hpp:292-322 (`BlanesMoan2002S10`). -/
def blanesMoan2002S10 : PartitionedTable where
  order := 6
  timeReversible := true
  firstSameAsLast := true
  a := [148816447901042000, -132385865767784000, 67307604692185000, 432666402578175000, -16404589403618000, -16404589403618000, 432666402578175000, 67307604692185000, -132385865767784000, 148816447901042000, 0]
  b := [50262764400392200, 413514300428344000, 45079889794397700, -188054853819569000, 541960678450780000, -725525558508689800, 541960678450780000, -188054853819569000, 45079889794397700, 413514300428344000, 50262764400392200]
  denominator := 10 ^ 18

/-- integrators/methods.hpp:323-345 (`BlanesMoan2002SRKN6B`). -/
def blanesMoan2002SRKN6B : SymplecticTable where
  order := 4
  timeReversible := true
  composition := .BAB
  a := [245298957184271000, 604872665711080000, -350171622895351000, -350171622895351000, 604872665711080000, 245298957184271000, 0]
  b := [82984406417405200, 396309801498368000, -39056304922348600, 119524194013150800, -39056304922348600, 396309801498368000, 82984406417405200]
  denominator := 10 ^ 18

/-- integrators/methods.hpp:346-378 (`BlanesMoan2002SRKN11B`). -/
def blanesMoan2002SRKN11B : SymplecticTable where
  order := 6
  timeReversible := true
  composition := .BAB
  a := [123229775946271000, 290553797799558000, -127049212625417000, -246331761062075000, 357208872795928000, 204777054291470000, 357208872795928000, -246331761062075000, -127049212625417000, 290553797799558000, 123229775946271000, 0]
  b := [41464998518262400, 198128671918067000, -40006192104153300, 75253984301580700, -11511387420687900, 236669924786931100, 236669924786931100, -11511387420687900, 75253984301580700, -40006192104153300, 198128671918067000, 41464998518262400]
  denominator := 10 ^ 18

/-- integrators/methods.hpp:379-417 (`BlanesMoan2002SRKN14A`). -/
def blanesMoan2002SRKN14A : SymplecticTable where
  order := 6
  timeReversible := true
  composition := .ABA
  a := [378593198406116000, 1026356331024350000, -258678882665587000, 3142414030714470000, -1301444595174150000, 1064177003695430000, -87942431285105800, 2073050690568954000, -87942431285105800, 1064177003695430000, -1301444595174150000, 3142414030714470000, -258678882665587000, 1026356331024350000, 378593198406116000]
  b := [0, 917191526244616500, 1839831700050060000, -565343658328882700, 49146887747128540, 1437611271683580000, 3285676937468040000, -1964114664864542300, -1964114664864542300, 3285676937468040000, 1437611271683580000, 49146887747128540, -565343658328882700, 1839831700050060000, 917191526244616500]
  denominator := 10 ^ 19

/-- integrators/methods.hpp:423-440 (`CandyRozmus1991ForestRuth1990`). -/
def candyRozmus1991ForestRuth1990 : PartitionedTable where
  order := 4
  timeReversible := true
  firstSameAsLast := true
  a := [13512071919596576340, -17024143839193152681, 13512071919596576340, 0]
  b := [6756035959798288170, -1756035959798288170, -1756035959798288170, 6756035959798288170]
  denominator := 10 ^ 19

/-- integrators/methods.hpp:651-663 (`McLachlan1995S2`). -/
def mcLachlan1995S2 : PartitionedTable where
  order := 2
  timeReversible := true
  firstSameAsLast := true
  a := [50000000000000000000, 50000000000000000000, 0]
  b := [19318332750378357396, 61363334499243285207, 19318332750378357396]
  denominator := 10 ^ 20

/-- integrators/methods.hpp:664-682 (`McLachlan1995S4`). -/
def mcLachlan1995S4 : PartitionedTable where
  order := 4
  timeReversible := true
  firstSameAsLast := true
  a := [545454545454545454550, -45454545454545454545, -45454545454545454545, 545454545454545454550, 0]
  b := [169139279922072045180, -299186203904050799510, 1260093847963957508700, -299186203904050799510, 169139279922072045180]
  denominator := 10 ^ 21

/-- integrators/methods.hpp:683-699 (`McLachlan1995S5`). -/
def mcLachlan1995S5 : PartitionedTable where
  order := 4
  timeReversible := true
  firstSameAsLast := true
  a := [400000000000000000000, -100000000000000000000, 400000000000000000000, -100000000000000000000, 400000000000000000000, 0]
  b := [89269454226475244887, -97336042636895508015, 508066588410420263130, 508066588410420263130, -97336042636895508015, 89269454226475244887]
  denominator := 10 ^ 21

/-- integrators/methods.hpp:700-714 (`McLachlan1995SB3A4`). -/
def mcLachlan1995SB3A4 : SymplecticTable where
  order := 4
  timeReversible := true
  composition := .ABA
  a := [188195217768838217870, -21528551102171551201, 666666666666666666670, -21528551102171551201, 188195217768838217870]
  b := [0, 1000000000000000000000, -500000000000000000000, -500000000000000000000, 1000000000000000000000]
  denominator := 10 ^ 21

/-- integrators/methods.hpp:715-735 (`McLachlan1995SB3A5`). -/
def mcLachlan1995SB3A5 : SymplecticTable where
  order := 4
  timeReversible := true
  composition := .ABA
  a := [405188618395252277200, -287144040816524089000, 381955422421271811800, 381955422421271811800, -287144040816524089000, 405188618395252277200]
  b := [0, -41095890410958904110, 288135593220338983050, 505920594381239842120, 288135593220338983050, -41095890410958904110]
  denominator := 10 ^ 21

/-- integrators/methods.hpp:736-756 (`McLachlan1995SS5`). -/
def mcLachlan1995SS5 : PartitionedTable where
  order := 4
  timeReversible := true
  firstSameAsLast := true
  a := [28000000000000000000, 62546642846767004500, -81093285693534009000, 62546642846767004500, 28000000000000000000, 0]
  b := [14000000000000000000, 45273321423383502251, -9273321423383502250, -9273321423383502250, 45273321423383502251, 14000000000000000000]
  denominator := 10 ^ 20

/-- integrators/methods.hpp:757-785 (`McLachlan1995SS9`). -/
def mcLachlan1995SS9 : PartitionedTable where
  order := 6
  timeReversible := true
  firstSameAsLast := true
  a := [18670000000000000000, 55549702371247839916, 12946694891347535806, -84326562338773460855, 94320330152356170270, -84326562338773460855, 12946694891347535806, 55549702371247839916, 18670000000000000000, 0]
  b := [9335000000000000000, 37109851185623919958, 34248198631297687861, -35689933723712962525, 4996883906791354710, 4996883906791354710, -35689933723712962525, 34248198631297687861, 37109851185623919958, 9335000000000000000]
  denominator := 10 ^ 20

/-- integrators/methods.hpp:786-826 (`McLachlan1995SS15`). -/
def mcLachlan1995SS15 : PartitionedTable where
  order := 8
  timeReversible := true
  firstSameAsLast := true
  a := [74167036435061295340, -40910082580003159400, 19075471029623838000, -57386247111608226670, 29906418130365592380, 33462491824529818380, 31529309239676659660, -79688793935291635400, 31529309239676659660, 33462491824529818380, 29906418130365592380, -57386247111608226670, 19075471029623838000, -40910082580003159400, 74167036435061295340, 0]
  b := [37083518217530647672, 16628476927529067970, -10917305775189660700, -19155388040992194340, -13739914490621317141, 31684454977447705380, 32495900532103239021, -24079742347807487870, -24079742347807487870, 32495900532103239021, 31684454977447705380, -13739914490621317141, -19155388040992194340, -10917305775189660700, 16628476927529067970, 37083518217530647672]
  denominator := 10 ^ 20

/-- integrators/methods.hpp:827-871 (`McLachlan1995SS17`). -/
def mcLachlan1995SS17 : PartitionedTable where
  order := 8
  timeReversible := true
  firstSameAsLast := true
  a := [128865979381443298970, 581514087105250962400, -410175371469850137530, 185146935716587732700, -409552343420851419340, 144405941080012041060, 278335500393679651310, 314956683916294857890, -626994825405133975000, 314956683916294857890, 278335500393679651310, 144405941080012041060, -409552343420851419340, 185146935716587732700, -410175371469850137530, 581514087105250962400, 128865979381443298970, 0]
  b := [64432989690721649485, 355190033243347130700, 85669357817700412400, -112514217876631202440, -112202703852131843300, -132573201170419689140, 211370720736845846200, 296646092154987254600, -156019070744419558500, -156019070744419558500, 296646092154987254600, 211370720736845846200, -132573201170419689140, -112202703852131843300, -112514217876631202440, 85669357817700412400, 355190033243347130700, 64432989690721649485]
  denominator := 10 ^ 21

/-- integrators/methods.hpp:874-887 (`McLachlanAtela1992Order2Optimal`). -/
def mcLachlanAtela1992Order2Optimal : PartitionedTable where
  order := 2
  timeReversible := false
  firstSameAsLast := false
  a := [7071067811865475244, 2928932188134524756]
  b := [2928932188134524756, 7071067811865475244]
  denominator := 10 ^ 19

/-- integrators/methods.hpp:888-903 (`McLachlanAtela1992Order3Optimal`). -/
def mcLachlanAtela1992Order3Optimal : PartitionedTable where
  order := 3
  timeReversible := false
  firstSameAsLast := false
  a := [9196615230173998571, -1879916187991597820, 2683300957817599250]
  b := [2683300957817599250, -1879916187991597820, 9196615230173998571]
  denominator := 10 ^ 19

/-- integrators/methods.hpp:904-921 (`McLachlanAtela1992Order4Optimal`). -/
def mcLachlanAtela1992Order4Optimal : SymplecticTable where
  order := 4
  timeReversible := false
  composition := .BA
  a := [5153528374311229364, -857820194129736460, 4415830236164665242, 1288461583653841854]
  b := [1344961992774310892, -2248198030794208058, 7563200005156682911, 3340036032863214255]
  denominator := 10 ^ 19

/-- integrators/methods.hpp:922-943 (`McLachlanAtela1992Order5Optimal`). -/
def mcLachlanAtela1992Order5Optimal : SymplecticTable where
  order := 5
  timeReversible := false
  composition := .BA
  a := [3398396258391100000, -886013369030273290, 5858564768259621188, -6030393565364918880, 3235807965546976394, 4423637942197494587]
  b := [1193900292875672758, 6989273703824752308, -1713123582716007754, 4012695022513534480, 107050818482359840, -589796254980311632]
  denominator := 10 ^ 19

/-- integrators/methods.hpp:951-962 (`NewtonDelambreStørmerVerletLeapfrog`). -/
def newtonDelambreStormerVerletLeapfrog : PartitionedTable where
  order := 2
  timeReversible := true
  firstSameAsLast := true
  a := [2, 0]
  b := [1, 1]
  denominator := 2

/-- integrators/methods.hpp:970-995 (`OkunborSkeel1994Order6Method13`). -/
def okunborSkeel1994Order6Method13 : SymplecticTable where
  order := 6
  timeReversible := true
  composition := .ABA
  a := [-1013087978917174729800, 1187429573732542707000, -18335852096460590340, 343994257281092613130, 343994257281092613130, -18335852096460590340, 1187429573732542707000, -1013087978917174729800]
  b := [0, 166006926500098940, -379624214263773606080, 689137411851810636740, 380641590970925740800, 689137411851810636740, -379624214263773606080, 166006926500098940]
  denominator := 10 ^ 21

/-- integrators/methods.hpp:1075-1087 (`Ruth1983`). -/
def ruth1983 : PartitionedTable where
  order := 3
  timeReversible := false
  firstSameAsLast := false
  a := [16, -16, 24]
  b := [7, 18, -1]
  denominator := 24

/-- integrators/methods.hpp:1092-1112 (`鈴木1990`). -/
def suzuki1990 : PartitionedTable where
  order := 4
  timeReversible := true
  firstSameAsLast := true
  a := [41449077179437573714, 41449077179437573714, -65796308717750294857, 41449077179437573714, 41449077179437573714, 0]
  b := [20724538589718786857, 41449077179437573714, -12173615769156360571, -12173615769156360571, 41449077179437573714, 20724538589718786857]
  denominator := 10 ^ 20

/-- integrators/methods.hpp:1118-1142 (`吉田1990Order6A`). -/
def yoshida1990Order6A : PartitionedTable where
  order := 6
  timeReversible := true
  firstSameAsLast := true
  a := [784513610477557263820, 235573213359358133690, -1177679984178871006950, 1315186320683911218890, -1177679984178871006950, 235573213359358133690, 784513610477557263820, 0]
  b := [392256805238778631910, 510043411918457698750, -471053385409756436630, 68753168252520105970, 68753168252520105970, -471053385409756436630, 510043411918457698750, 392256805238778631910]
  denominator := 10 ^ 21

/-- integrators/methods.hpp:1143-1167 (`吉田1990Order6B`). -/
def yoshida1990Order6B : PartitionedTable where
  order := 6
  timeReversible := true
  firstSameAsLast := true
  a := [143984816797678309102, 426068187079201616, -213228522200145152088, 237635274430775282740, -213228522200145152088, 426068187079201616, 143984816797678309102, 0]
  b := [71992408398839154551, 72205442492378755359, -106401227006532975236, 12203376115315065326, 12203376115315065326, -106401227006532975236, 72205442492378755359, 71992408398839154551]
  denominator := 10 ^ 20

/-- integrators/methods.hpp:1168-1192 (`吉田1990Order6C`). -/
def yoshida1990Order6C : PartitionedTable where
  order := 6
  timeReversible := true
  firstSameAsLast := true
  a := [144778256239929793290000, -214403531630538931060000, 152886228424927025338, 238944778324368421490000, 152886228424927025338, -214403531630538931060000, 144778256239929793290000, 0]
  b := [72389128119964896645000, -34812637695304568885000, -107125322701057002017000, 119548832276396674257000, 119548832276396674257000, -107125322701057002017000, -34812637695304568885000, 72389128119964896645000]
  denominator := 10 ^ 23

/-- integrators/methods.hpp:1193-1233 (`吉田1990Order8A`). -/
def yoshida1990Order8A : PartitionedTable where
  order := 8
  timeReversible := true
  firstSameAsLast := true
  a := [104242620869970426435000, 182020630970698006933000, 15773992812370832134300, 244002732616634406382000, -716989419709533209981, -244699182370424588929000, -161582374150065378479000, -178082862658948342530000, -161582374150065378479000, -244699182370424588929000, -716989419709533209981, 244002732616634406382000, 15773992812370832134300, 182020630970698006933000, 104242620869970426435000, 0]
  b := [52121310434985213217400, 143131625920334216684000, 98897311891534419533700, 129888362714502619258000, 121642871598462436586000, -122708085895067061070000, -203140778260244983704000, -169832618404506860510000, -169832618404506860510000, -203140778260244983704000, -122708085895067061070000, 121642871598462436586000, 129888362714502619258000, 98897311891534419533700, 143131625920334216684000, 52121310434985213217400]
  denominator := 10 ^ 23

/-- integrators/methods.hpp:1234-1274 (`吉田1990Order8B`). -/
def yoshida1990Order8B : PartitionedTable where
  order := 8
  timeReversible := true
  firstSameAsLast := true
  a := [148819229202921310080000, -233864815101041943098000, 289105148972198900311000, -289688250330423987105000, 378039588362668223674, 289195744315817391244000, -169248587771706559145, -307551696120125266190000, -169248587771706559145, 289195744315817391244000, 378039588362668223674, -289688250330423987105000, 289105148972198900311000, -233864815101041943098000, 148819229202921310080000, 0]
  b := [74409614601460655040100, -42522792949060316509000, 27620166935578478606000, -291550679112543397000, -144655105371030659441000, 144786891952090029734000, 144513247864022842343000, -153860472353948486380000, -153860472353948486380000, 144513247864022842343000, 144786891952090029734000, -144655105371030659441000, -291550679112543397000, 27620166935578478606000, -42522792949060316509000, 74409614601460655040100]
  denominator := 10 ^ 23

/-- integrators/methods.hpp:1275-1315 (`吉田1990Order8C`). -/
def yoshida1990Order8C : PartitionedTable where
  order := 8
  timeReversible := true
  firstSameAsLast := true
  a := [629030650210427818049, 1369349464168742223700, -1064587147891839041810, 1663358099633113562980, -1678969282596374029250, -1559468038214497958760, 311790812418431890510, 1658990884543991069200, 311790812418431890510, -1559468038214497958760, -1678969282596374029250, 1663358099633113562980, -1064587147891839041810, 1369349464168742223700, 629030650210427818049, 0]
  b := [314515325105213909024, 999190057189585020872, 152381158138451590940, 299385475870637260590, -7805591481630233140, -1619218660405435994000, -623838612898033034124, 985390848481211479840, 985390848481211479840, -623838612898033034124, -1619218660405435994000, -7805591481630233140, 299385475870637260590, 152381158138451590940, 999190057189585020872, 314515325105213909024]
  denominator := 10 ^ 21

/-- integrators/methods.hpp:1316-1356 (`吉田1990Order8D`). -/
def yoshida1990Order8D : PartitionedTable where
  order := 8
  timeReversible := true
  firstSameAsLast := true
  a := [914844246229642658287, 253693336566286009974, -1444852236860306476600, -158240635368502468458, 1938139137622912324710, -1960610232975581636910, 102799849392219431139, 1708453070786660315700, 102799849392219431139, -1960610232975581636910, 1938139137622912324710, -158240635368502468458, -1444852236860306476600, 253693336566286009974, 914844246229642658287, 0]
  b := [457422123114821329143, 584268791397964334130, -595579450147010233314, -801546436114404472530, 889949251127204928130, -11235547676334656100, -928905191791681102890, 905626460089439873430, 905626460089439873430, -928905191791681102890, -11235547676334656100, 889949251127204928130, -801546436114404472530, -595579450147010233314, 584268791397964334130, 457422123114821329143]
  denominator := 10 ^ 21

/-- integrators/methods.hpp:1357-1397 (`吉田1990Order8E`). -/
def yoshida1990Order8E : PartitionedTable where
  order := 8
  timeReversible := true
  firstSameAsLast := true
  a := [130300165757516838484000, 10799046771809827964800, -204809795883490205633000, 536018921375238082832, -7191800536507050750050, 252778927318028339169000, 2277388401263122599370, -269379901499992219830000, 2277388401263122599370, 252778927318028339169000, -7191800536507050750050, 536018921375238082832, -204809795883490205633000, 10799046771809827964800, 130300165757516838484000, 0]
  b := [65150082878758419241800, 70549606264663333224100, -97005374555840188834000, -102136888481057483775000, -3327890807565906333610, 122793563390760644210000, 127528157859645730884000, -133551256549364548617000, -133551256549364548617000, 127528157859645730884000, 122793563390760644210000, -3327890807565906333610, -102136888481057483775000, -97005374555840188834000, 70549606264663333224100, 65150082878758419241800]
  denominator := 10 ^ 23

/-! ### The Runge-Kutta and Runge-Kutta-Nyström methods -/

/-- integrators/methods.hpp:632-648 (`Kutta1901Vσ1`). -/
def kutta1901 : RungeKuttaTable where
  order := 4
  stages := 4
  firstSameAsLast := false
  c := [0, 1 / 2, 1 / 2, 1]
  a := [[], [1 / 2], [0, 1 / 2], [0, 0, 1]]
  b := [1 / 6, 1 / 3, 1 / 3, 1 / 6]

/-- integrators/methods.hpp:599-629 (`DormandPrince1986RK547FC`). -/
def dormandPrince1986RK547FC : EmbeddedTable where
  higherOrder := 5
  lowerOrder := 4
  stages := 7
  firstSameAsLast := true
  c := [0, 1 / 5, 3 / 10, 6 / 13, 2 / 3, 1, 1]
  a := [[], [1 / 5], [3 / 40, 9 / 40], [264 / 2197, -90 / 2197, 840 / 2197], [932 / 3645, -14 / 27, 3256 / 5103, 7436 / 25515], [-367 / 513, 30 / 19, 9940 / 5643, -29575 / 8208, 6615 / 3344], [35 / 432, 0, 8500 / 14553, -28561 / 84672, 405 / 704, 19 / 196]]
  bHat := [35 / 432, 0, 8500 / 14553, -28561 / 84672, 405 / 704, 19 / 196, 0]
  b := [11 / 108, 0, 6250 / 14553, -2197 / 21168, 81 / 176, 171 / 1960, 1 / 40]

/-- integrators/methods.hpp:574-597 (`DormandالمكاوىPrince1986RKN434FM`). -/
def dormandElMikkawyPrince1986RKN434FM : NystromTable where
  higherOrder := 4
  lowerOrder := 3
  stages := 4
  firstSameAsLast := true
  c := [0, 1 / 4, 7 / 10, 1]
  a := [[], [1 / 32], [7 / 1000, 119 / 500], [1 / 14, 8 / 27, 25 / 189]]
  bHat := [1 / 14, 8 / 27, 25 / 189, 0]
  bHat' := [1 / 14, 32 / 81, 250 / 567, 5 / 54]
  b := [-7 / 150, 67 / 150, 3 / 20, -1 / 20]
  b' := [13 / 21, -20 / 27, 275 / 189, -1 / 3]

/-- integrators/methods.hpp:543-570 (`Fine1987RKNG34`).  The coefficients `b` and `bʹ`, which are given as differences, have been computed. -/
def fine1987RKNG34 : GeneralizedNystromTable where
  toNystromTable :=
    { higherOrder := 4
      lowerOrder := 3
      stages := 5
      firstSameAsLast := false
      c := [0, 2 / 9, 1 / 3, 3 / 4, 1]
      a := [[], [2 / 81], [1 / 36, 1 / 36], [9 / 128, 0, 27 / 128], [11 / 60, -3 / 20, 9 / 25, 8 / 75]]
      bHat := [19 / 180, 0, 63 / 200, 16 / 225, 1 / 120]
      bHat' := [1 / 9, 0, 9 / 20, 16 / 45, 1 / 12]
      b := [116 / 1395, 0, 567 / 1550, 176 / 6975, 4 / 155]
      b' := [107 / 1125, 0, 1233 / 2500, 1712 / 5625, 161 / 1500] }
  a' := [[], [2 / 9], [1 / 12, 1 / 4], [69 / 128, -117 / 64, 135 / 64], [-17 / 12, 27 / 4, -27 / 5, 16 / 15]]

/-- integrators/methods.hpp:443-540 (`Fine1987RKNG45`).  The coefficients `b` and `bʹ`, which are given as differences, have been computed. -/
def fine1987RKNG45 : GeneralizedNystromTable where
  toNystromTable :=
    { higherOrder := 5
      lowerOrder := 4
      stages := 7
      firstSameAsLast := true
      c := [0, 8 / 39, 4 / 13, 5 / 6, 43 / 47, 1, 1]
      a := [[], [32 / 1521], [4 / 169, 4 / 169], [175 / 5184, 0, 1625 / 5184], [-342497279 / 5618900760, 6827067 / 46824173, 35048741 / 102161832, -2201514 / 234120865], [-7079 / 52152, 767 / 2173, 14027 / 52152, 30 / 2173, 0], [4817 / 51600, 0, 388869 / 1216880, 3276 / 23575, -1142053 / 22015140, 0]]
      bHat := [4817 / 51600, 0, 388869 / 1216880, 3276 / 23575, -1142053 / 22015140, 0, 0]
      bHat' := [4817 / 51600, 0, 1685099 / 3650640, 19656 / 23575, -53676491 / 88060560, 53 / 240, 0]
      b := [5705201 / 63210000, 0, 487384677 / 1490678000, 3426228 / 28879375, -966881509 / 26968546500, 0, 0]
      b' := [5705201 / 63210000, 0, 704000089 / 1490678000, 20557368 / 28879375, -45443430923 / 107874186000, 31429 / 294000, 1 / 25] }
  a' := [[], [8 / 39], [1 / 13, 3 / 13], [7385 / 6912, -9425 / 2304, 13325 / 3456], [223324757 / 91364240, -174255393 / 18272848, 382840094 / 46824173, -39627252 / 234120865], [108475 / 36464, -9633 / 848, 7624604 / 806183, 8100 / 49979, -4568212 / 19446707], [4817 / 51600, 0, 1685099 / 3650640, 19656 / 23575, -53676491 / 88060560, 53 / 240]]

/-! ### The multistep methods -/

/-- integrators/methods.hpp:213-222 (`AdamsBashforthOrder2`). -/
def adamsBashforthOrder2 : MultistepTable where
  order := 2
  steps := 2
  α := [1, -1, 0]
  βNumerator := [0, 3, -1]
  βDenominator := 2

/-- integrators/methods.hpp:224-233 (`AdamsBashforthOrder3`). -/
def adamsBashforthOrder3 : MultistepTable where
  order := 3
  steps := 3
  α := [1, -1, 0]
  βNumerator := [0, 23, -16, 5]
  βDenominator := 12

/-- integrators/methods.hpp:235-244 (`AdamsBashforthOrder4`). -/
def adamsBashforthOrder4 : MultistepTable where
  order := 4
  steps := 4
  α := [1, -1, 0]
  βNumerator := [0, 55, -59, 37, -9]
  βDenominator := 24

/-- integrators/methods.hpp:246-255 (`AdamsBashforthOrder5`). -/
def adamsBashforthOrder5 : MultistepTable where
  order := 5
  steps := 5
  α := [1, -1, 0]
  βNumerator := [0, 1901, -2774, 2616, -1274, 251]
  βDenominator := 720

/-- integrators/methods.hpp:257-266 (`AdamsBashforthOrder6`). -/
def adamsBashforthOrder6 : MultistepTable where
  order := 6
  steps := 6
  α := [1, -1, 0]
  βNumerator := [0, 4277, -7923, 9982, -7298, 2877, -475]
  βDenominator := 1440

/-- integrators/cohen_hubbard_oesterwinter_body.hpp:10-14. -/
def cohenHubbardOesterwinter1 : List ℚ × ℚ := ([1], 2)

/-- integrators/cohen_hubbard_oesterwinter_body.hpp:17-21. -/
def cohenHubbardOesterwinter2 : List ℚ × ℚ := ([2, 1], 6)

/-- integrators/cohen_hubbard_oesterwinter_body.hpp:24-28. -/
def cohenHubbardOesterwinter3 : List ℚ × ℚ := ([7, 6, -1], 24)

/-- integrators/cohen_hubbard_oesterwinter_body.hpp:31-35. -/
def cohenHubbardOesterwinter4 : List ℚ × ℚ := ([97, 114, -39, 8], 360)

/-- integrators/cohen_hubbard_oesterwinter_body.hpp:38-43. -/
def cohenHubbardOesterwinter5 : List ℚ × ℚ := ([367, 540, -282, 116, -21], 1440)

/-- integrators/cohen_hubbard_oesterwinter_body.hpp:46-51. -/
def cohenHubbardOesterwinter6 : List ℚ × ℚ := ([2462, 4315, -3044, 1882, -682, 107], 10080)

/-- integrators/cohen_hubbard_oesterwinter_body.hpp:54-65. -/
def cohenHubbardOesterwinter7 : List ℚ × ℚ := ([28549, 57750, -51453, 42484, -23109, 7254, -995], 120960)

/-- integrators/cohen_hubbard_oesterwinter_body.hpp:68-80. -/
def cohenHubbardOesterwinter8 : List ℚ × ℚ := ([416173, 950684, -1025097, 1059430, -768805, 362112, -99359, 12062], 1814400)

/-- integrators/cohen_hubbard_oesterwinter_body.hpp:83-96. -/
def cohenHubbardOesterwinter9 : List ℚ × ℚ := ([1624505, 4124232, -5225624, 6488192, -5888310, 3698920, -1522672, 369744, -40187], 7257600)

/-- integrators/cohen_hubbard_oesterwinter_body.hpp:99-113. -/
def cohenHubbardOesterwinter10 : List ℚ × ℚ := ([52478684, 146269485, -213124908, 309028740, -336691836, 264441966, -145166580, 52880868, -11496000, 1129981], 239500800)

/-- integrators/cohen_hubbard_oesterwinter_body.hpp:116-131. -/
def cohenHubbardOesterwinter11 : List ℚ × ℚ := ([205994615, 624279150, -1028905077, 1706529480, -2169992754, 2045638356, -1403891730, 681937992, -222389445, 43721134, -3920121], 958003200)

/-- integrators/cohen_hubbard_oesterwinter_body.hpp:134-150. -/
def cohenHubbardOesterwinter12 : List ℚ × ℚ := ([92158447389, 301307140046, -554452444015, 1035372815340, -1505150506950, 1655690777412, -1363696062582, 828085590240, -360089099415, 106193749950, -19043781851, 1569102436], 435891456000)

/-- integrators/cohen_hubbard_oesterwinter_body.hpp:153-170. -/
def cohenHubbardOesterwinter13 : List ℚ × ℚ := ([1089142980505, 3816786338508, -7759482946938, 16111319179940, -26357208224085, 33140932754040, -31849103413596, 23209670507976, -12616471333665, 4961170395260, -1334579000970, 219929887188, -16758388163], 5230697472000)

/-- integrators/cohen_hubbard_oesterwinter_body.hpp:173-191. -/
def cohenHubbardOesterwinter14 : List ℚ × ℚ := ([3222245907974, 12037738451557, -26802725457012, 61256305132546, -111377493654070, 157573362429387, -173081395797144, 147163097080284, -95999978168262, 47189380167595, -16926084595636, 4184066277762, -637654600522, 45183033541], 15692092416000)

/-- integrators/cohen_hubbard_oesterwinter_body.hpp:194-213. -/
def cohenHubbardOesterwinter15 : List ℚ × ℚ := ([12725213787853, 50443731622830, -122113957635961, 304637443761836, -609443588503323, 958160677491634, -1184126424849705, 1150710493076712, -875800754334177, 516624748444466, -231637952269587, 76348488342700, -17453674210001, 2473509950766, -163769844043], 62768369664000)

/-- integrators/methods.hpp:998-1007 (`Quinlan1999Order8A`). -/
def quinlan1999Order8A : SymmetricTable where
  order := 8
  α := [1, -2, 2, -2, 2]
  βNumerator := [0, 22081, -29418, 75183, -75212]
  βDenominator := 15120
  cohenHubbardOesterwinter := cohenHubbardOesterwinter8

/-- integrators/methods.hpp:1008-1017 (`Quinlan1999Order8B`). -/
def quinlan1999Order8B : SymmetricTable where
  order := 8
  α := [1, 0, 0, -1 / 2, -1]
  βNumerator := [0, 192481, 6582, 816783, -156812]
  βDenominator := 120960
  cohenHubbardOesterwinter := cohenHubbardOesterwinter8

/-- integrators/methods.hpp:1020-1029 (`QuinlanTremaine1990Order8`). -/
def quinlanTremaine1990Order8 : SymmetricTable where
  order := 8
  α := [1, -2, 2, -1, 0]
  βNumerator := [0, 17671, -23622, 61449, -50516]
  βDenominator := 12096
  cohenHubbardOesterwinter := cohenHubbardOesterwinter8

/-- integrators/methods.hpp:1030-1039 (`QuinlanTremaine1990Order10`). -/
def quinlanTremaine1990Order10 : SymmetricTable where
  order := 10
  α := [1, -1, 1, -1, 1, -2]
  βNumerator := [0, 399187, -485156, 2391436, -2816732, 4651330]
  βDenominator := 241920
  cohenHubbardOesterwinter := cohenHubbardOesterwinter10

/-- integrators/methods.hpp:1040-1055 (`QuinlanTremaine1990Order12`). -/
def quinlanTremaine1990Order12 : SymmetricTable where
  order := 12
  α := [1, -2, 2, -1, 0, 0, 0]
  βNumerator := [0, 90987349, -229596838, 812627169, -1628539944, 2714971338, -3041896548]
  βDenominator := 53222400
  cohenHubbardOesterwinter := cohenHubbardOesterwinter12

/-- integrators/methods.hpp:1056-1072 (`QuinlanTremaine1990Order14`). -/
def quinlanTremaine1990Order14 : SymmetricTable where
  order := 14
  α := [1, -2, 2, -1, 0, 0, 0, 0]
  βNumerator := [0, 433489274083, -1364031998256, 5583113380398, -14154444148720, 28630585332045, -42056933842656, 48471792742212]
  βDenominator := 237758976000
  cohenHubbardOesterwinter := cohenHubbardOesterwinter14

/-! ### All the methods -/

/-- All the symplectic methods of integrators/methods.hpp, with the compositions that may be requested. -/
def symplectic : List SymplecticTable :=
  [blanesMoan2002S6.as .ABA,
    blanesMoan2002S6.as .BAB,
    blanesMoan2002S10.as .ABA,
    blanesMoan2002S10.as .BAB,
    candyRozmus1991ForestRuth1990.as .ABA,
    candyRozmus1991ForestRuth1990.as .BAB,
    mcLachlan1995S2.as .ABA,
    mcLachlan1995S2.as .BAB,
    mcLachlan1995S4.as .ABA,
    mcLachlan1995S4.as .BAB,
    mcLachlan1995S5.as .ABA,
    mcLachlan1995S5.as .BAB,
    mcLachlan1995SS5.as .ABA,
    mcLachlan1995SS5.as .BAB,
    mcLachlan1995SS9.as .ABA,
    mcLachlan1995SS9.as .BAB,
    mcLachlan1995SS15.as .ABA,
    mcLachlan1995SS15.as .BAB,
    mcLachlan1995SS17.as .ABA,
    mcLachlan1995SS17.as .BAB,
    mcLachlanAtela1992Order2Optimal.as .BA,
    mcLachlanAtela1992Order3Optimal.as .BA,
    newtonDelambreStormerVerletLeapfrog.as .ABA,
    newtonDelambreStormerVerletLeapfrog.as .BAB,
    ruth1983.as .BA,
    suzuki1990.as .ABA,
    suzuki1990.as .BAB,
    yoshida1990Order6A.as .ABA,
    yoshida1990Order6A.as .BAB,
    yoshida1990Order6B.as .ABA,
    yoshida1990Order6B.as .BAB,
    yoshida1990Order6C.as .ABA,
    yoshida1990Order6C.as .BAB,
    yoshida1990Order8A.as .ABA,
    yoshida1990Order8A.as .BAB,
    yoshida1990Order8B.as .ABA,
    yoshida1990Order8B.as .BAB,
    yoshida1990Order8C.as .ABA,
    yoshida1990Order8C.as .BAB,
    yoshida1990Order8D.as .ABA,
    yoshida1990Order8D.as .BAB,
    yoshida1990Order8E.as .ABA,
    yoshida1990Order8E.as .BAB,
    blanesMoan2002SRKN6B,
    blanesMoan2002SRKN11B,
    blanesMoan2002SRKN14A,
    mcLachlan1995SB3A4,
    mcLachlan1995SB3A5,
    mcLachlanAtela1992Order4Optimal,
    mcLachlanAtela1992Order5Optimal,
    okunborSkeel1994Order6Method13]

/-- All the explicit linear multistep methods. -/
def multistep : List MultistepTable := [adamsBashforthOrder2, adamsBashforthOrder3, adamsBashforthOrder4, adamsBashforthOrder5, adamsBashforthOrder6]

/-- All the symmetric linear multistep methods. -/
def symmetric : List SymmetricTable := [quinlan1999Order8A, quinlan1999Order8B, quinlanTremaine1990Order8, quinlanTremaine1990Order10, quinlanTremaine1990Order12, quinlanTremaine1990Order14]

end Methods

end Principia.Integrators
