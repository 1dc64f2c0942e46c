import Verif.Interp
import Verif.ErkTableau

/-!
# Model of irk.cpp `get_coefficients` and `verify_solver_coeffs`
-/

namespace Verif
variable {F : Type} [Add F] [Sub F] [Mul F] [Div F] [Neg F] [Scalar F]

/-- `case IMPLICIT_EULER` (irk.cpp 238-244) -/
def implicitEuler : SolverCoeffs F :=
  { A := [[lit 1]], b := [lit 1], c := [lit 1], order := some 1, order2 := some 0, gamma := lit 0 }

/-- `case LOBATTO_IIIA_43` (irk.cpp 246-258) -/
def lobattoIIIA43 : SolverCoeffs F :=
  { A := [[lit 0, lit 0, lit 0],
          [q 5 24, q 1 3, nq 1 24],
          [q 1 6, q 2 3, q 1 6]],
    c := [lit 0, lit (1/2), lit 1],
    b := [q 1 6, q 2 3, q 1 6],
    b2 := [- lit (1/2), lit 2, - lit (1/2)],
    order := some 4, order2 := some 2, fsal := true, gamma := lit 0 }

/-- `case LOBATTO_IIIC_43` (irk.cpp 261-272) -/
def lobattoIIIC43 : SolverCoeffs F :=
  { A := [[q 1 6, nq 1 3, q 1 6],
          [q 1 6, q 5 12, nq 1 12],
          [q 1 6, q 2 3, q 1 6]],
    b := [q 1 6, q 2 3, q 1 6],
    b2 := [q 1 6, q 1 6, q 2 3],
    c := [lit 0, lit (1/2), lit 1],
    order := some 4, order2 := some 2, gamma := lit 0 }

/-- `case LOBATTO_IIIC_64` (irk.cpp 274-286) -/
def lobattoIIIC64 : SolverCoeffs F :=
  let s5 : F := ssqrt (lit 5)
  { A := [[q 1 12, (- s5) / lit 12, s5 / lit 12, nq 1 12],
          [q 1 12, lit (1/4), (lit 10 - lit 7 * s5) / lit 60, s5 / lit 60],
          [q 1 12, (lit 10 + lit 7 * s5) / lit 60, lit (1/4), (- s5) / lit 60],
          [q 1 12, q 5 12, q 5 12, q 1 12]],
    b := [q 1 12, q 5 12, q 5 12, q 1 12],
    b2 := [q 1 12, q 1 12, q 5 12, q 5 12],
    c := [lit 0, lit (1/2) - s5 / lit 10, lit (1/2) + s5 / lit 10, lit 1],
    order := some 6, order2 := some 4, gamma := lit 0 }

/-- `case LOBATTO_IIIC_85` (irk.cpp 288-327), `sqrt21` of line 221 -/
def lobattoIIIC85 : SolverCoeffs F :=
  let s21 : F := ssqrt (lit 21)
  let c : List F := [lit 0, lit (1/2) - s21 / lit 14, lit (1/2), lit (1/2) + s21 / lit 14, lit 1]
  { A := [[q 1 20, nq 7 60, q 2 15, nq 7 60, q 1 20],
          [q 1 20, q 29 180, (lit 47 - lit 15 * s21) / lit 315, (lit 203 - lit 30 * s21) / lit 1260, nq 3 140],
          [q 1 20, (lit 329 + lit 105 * s21) / lit 2880, q 73 360, (lit 329 - lit 105 * s21) / lit 2880, q 3 160],
          [q 1 20, (lit 203 + lit 30 * s21) / lit 1260, (lit 47 + lit 15 * s21) / lit 315, q 29 180, nq 3 140],
          [q 1 20, q 49 180, q 16 45, q 49 180, q 1 20]],
    c := c,
    b := [lit (5 / 10 ^ 2), q 49 180, q 16 45, q 49 180, lit (5 / 10 ^ 2)],
    b2 := [lit (5 / 10 ^ 2), lit (5 / 10 ^ 2), q 49 180, q 16 45, q 49 180],
    gamma := lit (1894964436645163 / 10 ^ 16),
    order := some 8, order2 := some 5, bInterp := collocMat c }

/-- `case GAUSS_LEGENDRE_42` (irk.cpp 328-340), `sqrt3` of line 218 -/
def gaussLegendre42 : SolverCoeffs F :=
  let s3 : F := ssqrt (lit 3)
  { A := [[lit (1/4), lit (1/4) - s3 / lit 6, lit 0],
          [lit (1/4) + s3 / lit 6, lit (1/4), lit 0],
          [lit 0, lit 0, lit 0]],
    c := [lit (1/2) - s3 / lit 6, lit (1/2) + s3 / lit 6, lit 0],
    b := [lit (1/2), lit (1/2), lit 0],
    b2 := [(lit 3 * s3 + lit 1) / lit 12, (lit 7 - s3) / lit 12, (lit 2 - s3) / lit 6],
    order := some 4, order2 := some 2, gamma := lit 0 }

/-- `case RADAU_IIA_32` (irk.cpp 342-360) -/
def radauIIA32 : SolverCoeffs F :=
  { A := [[q 5 12, nq 1 12], [q 3 4, q 1 4]],
    gamma := q 1 3,
    c := [q 1 3, lit 1],
    b := [q 3 4, q 1 4],
    b2 := [q 2 3, q 1 3],
    order := some 3, order2 := some 2, bInterp := collocMat [q 1 3, lit 1] }

/-- `case RADAU_IIA_53` (irk.cpp 363-391), `sqrt6` of line 220 -/
def radauIIA53 : SolverCoeffs F :=
  let s6 : F := ssqrt (lit 6)
  let g : F := lit (274888829595677 / 10 ^ 15)
  let c : List F := [(lit 4 - s6) / lit 10, (lit 4 + s6) / lit 10, lit 1]
  { A := [[(lit 88 - lit 7 * s6) / lit 360, (lit 296 - lit 169 * s6) / lit 1800, (- lit 2 + lit 3 * s6) / lit 225],
          [(lit 296 + lit 169 * s6) / lit 1800, (lit 88 + lit 7 * s6) / lit 360, (- lit 2 - lit 3 * s6) / lit 225],
          [(lit 16 - s6) / lit 36, (lit 16 + s6) / lit 36, q 1 9]],
    gamma := g,
    c := c,
    b := [(lit 16 - s6) / lit 36, (lit 16 + s6) / lit 36, q 1 9],
    b2 := [(- ((lit 18 * s6 + lit 12) * g - lit 16 + s6)) / lit 36,
           ((lit 18 * s6 - lit 12) * g + lit 16 + s6) / lit 36,
           (- (lit 3 * g - lit 1)) / lit 9],
    order := some 5, order2 := some 3, bInterp := collocMat c }

/-- `case RADAU_IIA_95` (irk.cpp 393-436) -/
def radauIIA95 : SolverCoeffs F :=
  { A := [[lit (729988643179033243 / 10 ^ 19),
      - lit (267353311079455719 / 10 ^ 19),
      lit (186769297639843544 / 10 ^ 19),
      - lit (128791060933064399 / 10 ^ 19),
      lit (504283923388201521 / 10 ^ 20)],
     [lit (153775231479182469 / 10 ^ 18),
      lit (146214867847493507 / 10 ^ 18),
      - lit (36444568905128090 / 10 ^ 18),
      lit (21233063119304719 / 10 ^ 18),
      - lit (7935579902728778 / 10 ^ 18)],
     [lit (14006304568480987 / 10 ^ 17),
      lit (29896712949128348 / 10 ^ 17),
      lit (16758507013524896 / 10 ^ 17),
      - lit (3396910168661775 / 10 ^ 17),
      lit (1094428874419225 / 10 ^ 17)],
     [lit (14489430810953476 / 10 ^ 17),
      lit (2765000687601592 / 10 ^ 16),
      lit (3257979229104210 / 10 ^ 16),
      lit (1287567532549098 / 10 ^ 16),
      - lit (1570891737880533 / 10 ^ 17)],
     [lit (1437135607912259 / 10 ^ 16),
      lit (2813560151494621 / 10 ^ 16),
      lit (3118265229757413 / 10 ^ 16),
      lit (2231039010835707 / 10 ^ 16),
      lit (4 / 10 ^ 2)]],
    b := [lit (1437135607912259 / 10 ^ 16),
      lit (2813560151494621 / 10 ^ 16),
      lit (3118265229757413 / 10 ^ 16),
      lit (2231039010835707 / 10 ^ 16),
      lit (4 / 10 ^ 2)],
    c := [lit (5710419611451768219312119255411562124 / 10 ^ 38),
      lit (27684301363812382768004599768562514112 / 10 ^ 38),
      lit (58359043236891682005669766866291724869 / 10 ^ 38),
      lit (86024013565621944784791291887511976674 / 10 ^ 38),
      lit (10 / 10 ^ 1)],
    b2 := [(lit (1437135607912259 / 10 ^ 16)) - lit (15864079001863282 / 10 ^ 16) * lit (1590658444274690 / 10 ^ 16),
      (lit (2813560151494621 / 10 ^ 16)) + lit (10081178814983730 / 10 ^ 16) * lit (1590658444274690 / 10 ^ 16),
      (lit (3118265229757413 / 10 ^ 16)) - lit (73097486615978746 / 10 ^ 17) * lit (1590658444274690 / 10 ^ 16),
      (lit (2231039010835707 / 10 ^ 16)) + lit (50926488484774272 / 10 ^ 17) * lit (1590658444274690 / 10 ^ 16),
      (lit (4 / 10 ^ 2)) - lit (2 / 10 ^ 1) * lit (1590658444274690 / 10 ^ 16)],
    order := some 9, order2 := some 5, gamma := lit (1590658444274690 / 10 ^ 16),
    bInterp := collocMat [lit (5710419611451768219312119255411562124 / 10 ^ 38),
      lit (27684301363812382768004599768562514112 / 10 ^ 38),
      lit (58359043236891682005669766866291724869 / 10 ^ 38),
      lit (86024013565621944784791291887511976674 / 10 ^ 38),
      lit (10 / 10 ^ 1)] }

/-- `case RADAU_IIA_137` (irk.cpp 439-532) -/
def radauIIA137 : SolverCoeffs F :=
  { A := [[lit (37546264993921331333686127624105551410 / 10 ^ 39),
      - lit (14039334556460401537626568603936253927 / 10 ^ 39),
      lit (10352789600742300936755479003273124789 / 10 ^ 39),
      - lit (8158322540275011909204543577213278349 / 10 ^ 39),
      lit (6388413879534684943755951486405680409 / 10 ^ 39),
      - lit (4602326779148655499352025854768521774 / 10 ^ 39),
      lit (1828942561470643704035856835298607816 / 10 ^ 39)],
     [lit (80147596515618967795215595316188773479 / 10 ^ 39),
      lit (81062063985891536679584719357221980975 / 10 ^ 39),
      - lit (21237992120711034937085469604419103837 / 10 ^ 39),
      lit (14000291238817118983742204835134926788 / 10 ^ 39),
      - lit (10234185730090163829199816607636044634 / 10 ^ 39),
      lit (7153465151364590498062382166962141175 / 10 ^ 39),
      - lit (2812639372406723340342762967473461717 / 10 ^ 39)],
     [lit (72063846941881902113362526561137596780 / 10 ^ 39),
      lit (171068354983886619424352504009050302800 / 10 ^ 39),
      lit (109614564040072109233220407461845690823 / 10 ^ 39),
      - lit (24619871728984053862318864441100561089 / 10 ^ 39),
      lit (14760377043950817073195348981742706482 / 10 ^ 39),
      - lit (9575259396791400556328724726641713431 / 10 ^ 39),
      lit (3672678397138305671569774234741682832 / 10 ^ 39)],
     [lit (75705125819824420424641229496338921970 / 10 ^ 39),
      lit (154090155142171144646331682046482915172 / 10 ^ 39),
      lit (227107736673202386411281287949366350098 / 10 ^ 39),
      lit (117478187037024781987912680673932161442 / 10 ^ 39),
      - lit (23810827153044173582047929325774334376 / 10 ^ 39),
      lit (12709985533661205633610757619788395065 / 10 ^ 39),
      - lit (4608844281289633440336366654612469297 / 10 ^ 39)],
     [lit (73912342163191846540806321243016399213 / 10 ^ 39),
      lit (161355607615942432186220145903094810374 / 10 ^ 39),
      lit (206867241552104197819578846437670730910 / 10 ^ 39),
      lit (237007115342694234762246772957327514747 / 10 ^ 39),
      lit (103086793533813446624105845745721640646 / 10 ^ 39),
      - lit (18854139152580448840052190417863035125 / 10 ^ 39),
      lit (5858900974888791823977618246677391072 / 10 ^ 39)],
     [lit (74705562059796230172292559361766628756 / 10 ^ 39),
      lit (158307223872468700658479384514628716574 / 10 ^ 39),
      lit (214153423267200031108697457856861396619 / 10 ^ 39),
      lit (219877847031860039987487355490766771106 / 10 ^ 39),
      lit (198752121680635269801826469184534504760 / 10 ^ 39),
      lit (69265501605509133230972165761976742365 / 10 ^ 39),
      - lit (8116008197728290107881426350852749124 / 10 ^ 39)],
     [lit (74494235556010317933248780209166920975 / 10 ^ 39),
      lit (159102115733650740872435217234934182108 / 10 ^ 39),
      lit (212351889502977804199154019575104122356 / 10 ^ 39),
      lit (223554914507283234749674476821221017986 / 10 ^ 39),
      lit (190474936822115576902969173938062761867 / 10 ^ 39),
      lit (119613744612656202893538740384776300830 / 10 ^ 39),
      lit (20408163265306122448979591836734693878 / 10 ^ 39)]],
    b := [lit (74494235556010317933248780209166920975 / 10 ^ 39),
      lit (159102115733650740872435217234934182108 / 10 ^ 39),
      lit (212351889502977804199154019575104122356 / 10 ^ 39),
      lit (223554914507283234749674476821221017986 / 10 ^ 39),
      lit (190474936822115576902969173938062761867 / 10 ^ 39),
      lit (119613744612656202893538740384776300830 / 10 ^ 39),
      lit (20408163265306122448979591836734693878 / 10 ^ 39)],
    c := [lit (29316427159784891972050276913164910374 / 10 ^ 39),
      lit (148078599668484291849976852495979212230 / 10 ^ 39),
      lit (336984690281154299097052972080775705198 / 10 ^ 39),
      lit (558671518771550132081393341805521940074 / 10 ^ 39),
      lit (769233862030054500916883360115645451837 / 10 ^ 39),
      lit (926945671319741114851873965819682011056 / 10 ^ 39),
      lit 1],
    b2 := [(lit (74494235556010317933248780209166920975 / 10 ^ 39)) - lit (159406421856104180 / 10 ^ 17) * lit (111896465300035075935905337180769194745 / 10 ^ 39),
      (lit (159102115733650740872435217234934182108 / 10 ^ 39)) + lit (103655375219647650 / 10 ^ 17) * lit (111896465300035075935905337180769194745 / 10 ^ 39),
      (lit (212351889502977804199154019575104122356 / 10 ^ 39)) - lit (79382172349079269 / 10 ^ 17) * lit (111896465300035075935905337180769194745 / 10 ^ 39),
      (lit (223554914507283234749674476821221017986 / 10 ^ 39)) + lit (63257765224993423 / 10 ^ 17) * lit (111896465300035075935905337180769194745 / 10 ^ 39),
      (lit (190474936822115576902969173938062761867 / 10 ^ 39)) - lit (49761071360300131 / 10 ^ 17) * lit (111896465300035075935905337180769194745 / 10 ^ 39),
      (lit (119613744612656202893538740384776300830 / 10 ^ 39)) + lit (35922239406556795 / 10 ^ 17) * lit (111896465300035075935905337180769194745 / 10 ^ 39),
      (lit (20408163265306122448979591836734693878 / 10 ^ 39)) - lit (14285714285714286 / 10 ^ 17) * lit (111896465300035075935905337180769194745 / 10 ^ 39)],
    order := some 13, order2 := some 7, gamma := lit (111896465300035075935905337180769194745 / 10 ^ 39),
    bInterp := collocMat [lit (29316427159784891972050276913164910374 / 10 ^ 39),
      lit (148078599668484291849976852495979212230 / 10 ^ 39),
      lit (336984690281154299097052972080775705198 / 10 ^ 39),
      lit (558671518771550132081393341805521940074 / 10 ^ 39),
      lit (769233862030054500916883360115645451837 / 10 ^ 39),
      lit (926945671319741114851873965819682011056 / 10 ^ 39),
      lit 1] }

/-- `case GAUSS_LEGENDRE_147` (irk.cpp 535-612); `order` and `order2` are not assigned -/
def gaussLegendre147 : SolverCoeffs F :=
  { A := [[lit (323712415422174233 / 10 ^ 19),
      - lit (114510172831838703 / 10 ^ 19),
      lit (763320387242354493 / 10 ^ 20),
      - lit (513373356322534498 / 10 ^ 20),
      lit (317505877368563764 / 10 ^ 20),
      - lit (160681903704610586 / 10 ^ 20),
      lit (458109523749452982 / 10 ^ 21)],
     [lit (700435413787260763 / 10 ^ 19),
      lit (699263478723191670 / 10 ^ 19),
      - lit (165900065788477712 / 10 ^ 19),
      lit (934962278344333208 / 10 ^ 20),
      - lit (539709193189613785 / 10 ^ 20),
      lit (264584386673003738 / 10 ^ 20),
      - lit (743850190171923617 / 10 ^ 21)],
     [lit (621539357873498645 / 10 ^ 19),
      lit (152005522057830993 / 10 ^ 18),
      lit (954575126262797362 / 10 ^ 19),
      - lit (183752442154518374 / 10 ^ 19),
      lit (871256259847518198 / 10 ^ 20),
      - lit (395358015881043812 / 10 ^ 20),
      lit (107671561562791674 / 10 ^ 20)],
     [lit (663329286176847006 / 10 ^ 19),
      lit (133595769223882288 / 10 ^ 18),
      lit (207701880765970782 / 10 ^ 18),
      lit (104489795918367347 / 10 ^ 18),
      - lit (167868555134113096 / 10 ^ 19),
      lit (625692652075604553 / 10 ^ 20),
      - lit (159044553324985392 / 10 ^ 20)],
     [lit (636657674688069299 / 10 ^ 19),
      lit (143806275903448772 / 10 ^ 18),
      lit (182202462654084290 / 10 ^ 18),
      lit (227354836052186531 / 10 ^ 18),
      lit (954575126262797362 / 10 ^ 19),
      - lit (121528263131926586 / 10 ^ 19),
      lit (258854729708498210 / 10 ^ 20)],
     [lit (654863332746067703 / 10 ^ 19),
      lit (137206851877908297 / 10 ^ 18),
      lit (196312117184455610 / 10 ^ 18),
      lit (199629969053291362 / 10 ^ 18),
      lit (207505031831407244 / 10 ^ 18),
      lit (699263478723191670 / 10 ^ 19),
      - lit (530105829429122964 / 10 ^ 20)],
     [lit (642843735606853937 / 10 ^ 19),
      lit (141459514781684440 / 10 ^ 18),
      lit (187739966478873835 / 10 ^ 18),
      lit (214113325399960039 / 10 ^ 18),
      lit (183281821380135928 / 10 ^ 18),
      lit (151303713027822204 / 10 ^ 18),
      lit (323712415422174233 / 10 ^ 19)]],
    b := [lit (647424830844348466 / 10 ^ 19),
      lit (139852695744638334 / 10 ^ 18),
      lit (190915025252559472 / 10 ^ 18),
      lit (208979591836734694 / 10 ^ 18),
      lit (190915025252559472 / 10 ^ 18),
      lit (139852695744638334 / 10 ^ 18),
      lit (647424830844348466 / 10 ^ 19)],
    c := [lit (254460438286207377 / 10 ^ 19),
      lit (129234407200302780 / 10 ^ 18),
      lit (297077424311301417 / 10 ^ 18),
      lit (5 / 10 ^ 1),
      lit (702922575688698583 / 10 ^ 18),
      lit (870765592799697220 / 10 ^ 18),
      lit (974553956171379262 / 10 ^ 18)],
    b2 := [(lit (647424830844348466 / 10 ^ 19)) - lit (157466249971055050 / 10 ^ 17) * lit (100567464822504836 / 10 ^ 18),
      (lit (139852695744638334 / 10 ^ 18)) + lit (97072669650612219 / 10 ^ 17) * lit (100567464822504836 / 10 ^ 18),
      (lit (190915025252559472 / 10 ^ 18)) - lit (67210786192236179 / 10 ^ 17) * lit (100567464822504836 / 10 ^ 18),
      (lit (208979591836734694 / 10 ^ 18)) + lit (45714285714285714 / 10 ^ 17) * lit (100567464822504836 / 10 ^ 18),
      (lit (190915025252559472 / 10 ^ 18)) - lit (28405414676522997 / 10 ^ 17) * lit (100567464822504836 / 10 ^ 18),
      (lit (139852695744638334 / 10 ^ 18)) + lit (14407010361206885 / 10 ^ 17) * lit (100567464822504836 / 10 ^ 18),
      (lit (647424830844348466 / 10 ^ 19)) - lit (4111514886290593 / 10 ^ 17) * lit (100567464822504836 / 10 ^ 18)],
    order := none, order2 := none, gamma := lit (100567464822504836 / 10 ^ 18) }

/-- `case LOBATTO_IIIA_127` (irk.cpp 615-669); `order` and `order2` are not assigned -/
def lobattoIIIA127 : SolverCoeffs F :=
  { A := [[lit 0,
      lit 0,
      lit 0,
      lit 0,
      lit 0,
      lit 0,
      lit 0],
     [lit (328462643282926479 / 10 ^ 19),
      lit (593228940275514045 / 10 ^ 19),
      - lit (107685944511892671 / 10 ^ 19),
      lit (559759178056977723 / 10 ^ 20),
      - lit (348892997080746277 / 10 ^ 20),
      lit (221709658891453970 / 10 ^ 20),
      - lit (838270442615104380 / 10 ^ 21)],
     [lit (180022232018151657 / 10 ^ 19),
      lit (157701130641689042 / 10 ^ 18),
      lit (102354812046861915 / 10 ^ 18),
      - lit (184782592734590440 / 10 ^ 19),
      lit (957758010074140595 / 10 ^ 20),
      - lit (568186456622437757 / 10 ^ 20),
      lit (209998111321878573 / 10 ^ 20)],
     [lit (275297619047619048 / 10 ^ 19),
      lit (127788255559837470 / 10 ^ 18),
      lit (237485652721645444 / 10 ^ 18),
      lit (121904761904761905 / 10 ^ 18),
      - lit (216129621167141318 / 10 ^ 19),
      lit (106247681209455044 / 10 ^ 19),
      - lit (372023809523809524 / 10 ^ 20)],
     [lit (217095426963050238 / 10 ^ 19),
      lit (144094888247007352 / 10 ^ 18),
      lit (206295110504189906 / 10 ^ 18),
      lit (262287783082982854 / 10 ^ 18),
      lit (113517878558069396 / 10 ^ 18),
      - lit (192881069609060680 / 10 ^ 19),
      lit (580730060770864382 / 10 ^ 20)],
     [lit (246477942521389139 / 10 ^ 19),
      lit (136195927091868434 / 10 ^ 18),
      lit (219361620575738774 / 10 ^ 18),
      lit (238211932028954032 / 10 ^ 18),
      lit (226641285056120579 / 10 ^ 18),
      lit (790901296532315695 / 10 ^ 19),
      - lit (903674051876883836 / 10 ^ 20)],
     [lit (238095238095238095 / 10 ^ 19),
      lit (138413023680782974 / 10 ^ 18),
      lit (215872690604931312 / 10 ^ 18),
      lit (243809523809523810 / 10 ^ 18),
      lit (215872690604931312 / 10 ^ 18),
      lit (138413023680782974 / 10 ^ 18),
      lit (238095238095238095 / 10 ^ 19)]],
    b := [lit (238095238095238095 / 10 ^ 19),
      lit (138413023680782974 / 10 ^ 18),
      lit (215872690604931312 / 10 ^ 18),
      lit (243809523809523810 / 10 ^ 18),
      lit (215872690604931312 / 10 ^ 18),
      lit (138413023680782974 / 10 ^ 18),
      lit (238095238095238095 / 10 ^ 19)],
    c := [lit 0,
      lit (848880518607165351 / 10 ^ 19),
      lit (265575603264642893 / 10 ^ 18),
      lit (5 / 10 ^ 1),
      lit (734424396735357107 / 10 ^ 18),
      lit (915111948139283465 / 10 ^ 18),
      lit 1],
    b2 := [(lit (238095238095238095 / 10 ^ 19)) - lit (5 / 10 ^ 1),
      lit (138413023680782974 / 10 ^ 18),
      lit (215872690604931312 / 10 ^ 18),
      lit (243809523809523810 / 10 ^ 18),
      lit (215872690604931312 / 10 ^ 18),
      lit (138413023680782974 / 10 ^ 18),
      lit (238095238095238095 / 10 ^ 19)],
    order := none, order2 := none, gamma := lit (5 / 10 ^ 1) }


/-- `irk::get_coefficients` (irk.cpp 215-689).  The consistency warning of lines 673-686 only writes to `std::cerr`.
Unknown and unimplemented methods keep empty vectors and uninitialised orders. -/
def irkCoeffs (method : ℤ) : SolverCoeffs F :=
  if method = 200 then implicitEuler
  else if method = 210 then radauIIA32
  else if method = 211 then radauIIA53
  else if method = 212 then radauIIA95
  else if method = 213 then radauIIA137
  else if method = 220 then lobattoIIIA43
  else if method = 222 then lobattoIIIA127
  else if method = 230 then lobattoIIIC43
  else if method = 231 then lobattoIIIC64
  else if method = 232 then lobattoIIIC85
  else if method = 240 then gaussLegendre42
  else if method = 243 then gaussLegendre147
  else { gamma := lit 0 }

omit [Add F] [Sub F] [Mul F] [Div F] [Neg F] [Scalar F] in
/-- `irk::verify_solver_coeffs` (irk.cpp 99-108) -/
def irkVerify (sc : SolverCoeffs F) : Bool :=
  let N := sc.b.length
  if N ≠ sc.c.length ∨ N ≠ sc.nRows ∨ N ≠ sc.nCols then false
  else if N = 0 then false
  else true

/-- the implemented implicit methods -/
def irkImplemented : List ℤ := [200, 210, 211, 212, 213, 220, 222, 230, 231, 232, 240, 243]

end Verif
