import Mathlib.Data.Rat.Cast.Order
import Verif.Model.RK

/-!
# Coefficient tables of the explicit Runge-Kutta methods

Generated by `/verif/tools/gen_tables.py` from the class bodies in `/repo/extensisq` by exact evaluation
of the literals.  Decimal literals (Ts5, Pr8, Pr9) are taken as the exact decimal numbers; the
rounding of every coefficient to binary64 is not modelled.
-/

namespace Extensisq

/-- Class attributes `n_stages, order, order_secondary, A, B, C, E, P` of a solver class. -/
structure RKTable where
  s : ℕ
  order : ℕ
  orderSec : ℕ
  A : List (List ℚ)
  B : List ℚ
  C : List ℚ
  E : List ℚ
  P : List (List ℚ)

/-- The tableau used by the driver model, over any field. -/
def RKTable.tab (R : RKTable) (K : Type*) [DivisionRing K] : Tableau K where
  s := R.s
  A i j := (((R.A.getD i []).getD j 0 : ℚ) : K)
  B i := ((R.B.getD i 0 : ℚ) : K)
  C i := ((R.C.getD i 0 : ℚ) : K)
  E i := ((R.E.getD i 0 : ℚ) : K)

/-- `Me4` (merson.py:83-115). -/
def Me4 : RKTable where
  s := 5
  order := 4
  orderSec := 3
  A := [[0, 0, 0, 0, 0],
        [1/3, 0, 0, 0, 0],
        [1/6, 1/6, 0, 0, 0],
        [1/8, 0, 3/8, 0, 0],
        [1/2, 0, -3/2, 2, 0]]
  B := [1/6, 0, 0, 2/3, 1/6]
  C := [0, 1/3, 1/3, 1/2, 1]
  E := [-1/15, 0, 3/10, -4/15, 1/30, 0]
  P := [[1, -3, 11/3, -3/2],
        [0, 0, 0, 0],
        [0, 27/4, -27/2, 27/4],
        [0, -4, 32/3, -6],
        [0, -13/10, 49/15, -9/5],
        [0, 31/20, -41/10, 51/20]]

/-- `CK5` (cash.py:82-112). -/
def CK5 : RKTable where
  s := 6
  order := 5
  orderSec := 4
  A := [[0, 0, 0, 0, 0, 0],
        [1/5, 0, 0, 0, 0, 0],
        [3/40, 9/40, 0, 0, 0, 0],
        [3/10, -9/10, 6/5, 0, 0, 0],
        [-11/54, 5/2, -70/27, 35/27, 0, 0],
        [1631/55296, 175/512, 575/13824, 44275/110592, 253/4096, 0]]
  B := [37/378, 0, 250/621, 125/594, 0, 512/1771]
  C := [0, 1/5, 3/10, 3/5, 1, 7/8]
  E := [277/64512, 0, -6925/370944, 6925/202752, 277/14336, -277/7084, 0]
  P := [[1, -10405/3843, 32357/11529, -855/854],
        [0, 0, 0, 0],
        [0, 308500/88389, -1424000/265167, 67250/29463],
        [0, 5875/24156, 12875/36234, -3125/8052],
        [0, 235/1708, -235/854, 235/1708],
        [0, -287744/108031, 700416/108031, -381440/108031],
        [0, 3/2, -4, 5/2]]

/-- `BS5` (bogacki.py:103-215). -/
def BS5 : RKTable where
  s := 7
  order := 5
  orderSec := 4
  A := [[0, 0, 0, 0, 0, 0, 0],
        [1/6, 0, 0, 0, 0, 0, 0],
        [2/27, 4/27, 0, 0, 0, 0, 0],
        [183/1372, -162/343, 1053/1372, 0, 0, 0, 0],
        [68/297, -4/11, 42/143, 1960/3861, 0, 0, 0],
        [597/22528, 81/352, 63099/585728, 58653/366080, 4617/20480, 0, 0],
        [174197/959244, -30942/79937, 8152137/19744439, 666106/1039181, -29421/29068,
         482048/414219, 0]]
  B := [587/8064, 0, 4440339/15491840, 24353/124800, 387/44800, 2152/5985, 7267/94080]
  C := [0, 1/6, 2/9, 3/7, 2/3, 3/4, 1]
  E := [-3817/1959552, 0, 140181/15491840, -4224731/272937600, 8557/403200, -57928/4363065,
        -23930231/4366535040, 3293/556956]
  P := [[1, -2773674729811/735370896960, 316222661411/52526492640, -1282818361681/294148358784,
         6918746667/5836276960],
        [0, 0, 0, 0, 0],
        [0, 1594012432639617/282545840187520, -303081611134977/20181845727680,
         1643668176796011/113018336075008, -14071997888919/2883120818240],
        [0, -47637453654133/20485332129600, 125365109861131/10242666064800,
         -135424370922463/8194132851840, 2582696138393/379358002400],
        [0, 1915795112337/817078774400, -557453242737/58362769600, 3958638678747/326831509760,
         -285784868817/58362769600],
        [0, -1490252641456/654939705105, 692325952352/93562815015, -808867306376/130987941021,
         4887837472/3465289445],
        [0, 824349534931/571955142080, -895925604353/122561816160, 2443928282393/228782056832,
         -5528580993/1167255392],
        [0, -38480331/36476731, 226874786/36476731, -374785310/36476731, 186390855/36476731]]

/-- `CFMR7osc` (calvo.py:89-149). -/
def CFMR7osc : RKTable where
  s := 9
  order := 7
  orderSec := 5
  A := [[0, 0, 0, 0, 0, 0, 0, 0, 0],
        [4/63, 0, 0, 0, 0, 0, 0, 0, 0],
        [1/42, 1/14, 0, 0, 0, 0, 0, 0, 0],
        [1/28, 0, 3/28, 0, 0, 0, 0, 0, 0],
        [12551/19652, 0, -48363/19652, 10976/4913, 0, 0, 0, 0, 0],
        [-36616931/27869184, 0, 2370277/442368, -255519173/63700992, 226798819/445906944, 0, 0,
         0, 0],
        [-10401401/7164612, 0, 47383/8748, -4914455/1318761, -1498465/7302393, 2785280/3739203,
         0, 0, 0],
        [181002080831/17500000000, 0, -14827049601/400000000, 23296401527134463/857600000000000,
         2937811552328081/949760000000000, -243874470411/69355468750,
         2857867601589/3200000000000, 0, 0],
        [-228380759/19257212, 0, 4828803/113948, -331062132205/10932626912,
         -12727101935/3720174304, 22627205314560/4940625496417, -268403949/461033608,
         3600000000000/19176750553961, 0]]
  B := [95/2366, 0, 0, 3822231133/16579123200, 555164087/2298419200, 1279328256/9538891505,
        5963949/25894400, 50000000000/599799373173, 28487/712800]
  C := [0, 4/63, 2/21, 1/7, 7/17, 13/24, 7/9, 91/100, 1]
  E := [-322549667/50104356120, 0, 0, 322549667/16579123200, -2449060976137/44248372439040,
        123859072128/2082079863955, -78379569081/3046450265600, 18326685625000/2138357468316069,
        0, 0]
  P := [[1, -6248/1183, 12056/1183, -1345/182, 97/169, 160/169],
        [0, 0, 0, 0, 0, 0],
        [0, 0, 0, 0, 0, 0],
        [0, 661103345/110527488, -12471420661/828956160, 11535693337/1105274880,
         2373818279/1381593600, -823543/287832],
        [0, 39338391/20894720, -975441759/114920960, 9504105153/459683840, -1803301911/82086400,
         417605/51304],
        [0, -7599771648/1907778301, 41855533056/1907778301, -5870997504/146752177,
         295068082176/9538891505, -1517322240/173434391],
        [0, 684531/517888, -11632653/1294720, 14012109/739840, -13714677/924800, 2187/578],
        [0, 16000000000/18175738581, -2410000000000/599799373173, 10000000000/2197067301,
         -2000000000/28561874913, -4000000000/3173541657],
        [0, 28487/23760, -199409/35640, 370331/47520, -199409/59400, 0],
        [0, -2, 10, -15, 7, 0]]

/-- `Ts5` (tsitouras.py:83-115). -/
def Ts5 : RKTable where
  s := 6
  order := 5
  orderSec := 4
  A := [[0, 0, 0, 0, 0, 0],
        [161/1000, 0, 0, 0, 0, 0],
        [-8480655492357/1000000000000000, 335480655492357/1000000000000000, 0, 0, 0, 0],
        [1448576528552747/500000000000000, -254377939599003/40000000000000,
         4362295432869581/1000000000000000, 0, 0, 0],
        [106517296568785179/20000000000000000, -1174888356406283/100000000000000,
         1873884835722459/250000000000000, -369980265447021/4000000000000000, 0, 0],
        [293072772147321019/50000000000000000, -1292096931784711/100000000000000,
         8159367898576159/1000000000000000, -71584973281401/1000000000000000,
         -1413452519703419/50000000000000000, 0]]
  B := [9646076681806523/100000000000000000, 1/100, 1199724126036249/2500000000000000,
        689504287051871/500000000000000, -3290069515436081/1000000000000000,
        1162355262049887/500000000000000]
  C := [0, 161/1000, 327/1000, 9/10, 9800255409045097/10000000000000000, 1]
  E := [890005526113/500000000000000, 816434459657/1000000000000000,
        -3940439005131/500000000000000, 144711007173263/1000000000000000,
        -116471433090511/200000000000000, 458082105929187/1000000000000000, -1/66]
  P := [[1, -1381853098637413/500000000000000, 14566277309109563/5000000000000000,
         -1316360622161277/1250000000000000],
        [0, 6584999999999999/50000000000000000, -1117/5000, 1017/10000],
        [0, 3930296236894751/1000000000000000, -1188206774426301/200000000000000,
         2490627285651253/1000000000000000],
        [0, -3102769291733419/250000000000000, 15169094315141159/500000000000000,
         -8274051444622451/500000000000000],
        [0, 117216604426597/3125000000000, -55111815559229/625000000000,
         592244024535241/12500000000000],
        [0, -13948263144598643/500000000000000, 813648683434921/12500000000000,
         -3487065786149661/100000000000000],
        [0, 3/2, -4, 5/2]]

/-- `Pr7` (prince.py:79-128). -/
def Pr7 : RKTable where
  s := 10
  order := 7
  orderSec := 5
  A := [[0, 0, 0, 0, 0, 0, 0, 0, 0, 0],
        [1/6, 0, 0, 0, 0, 0, 0, 0, 0, 0],
        [1/16, 3/16, 0, 0, 0, 0, 0, 0, 0, 0],
        [1/4, -3/4, 1, 0, 0, 0, 0, 0, 0, 0],
        [1/12, 0, 1/3, 1/12, 0, 0, 0, 0, 0, 0],
        [9/128, 135/1024, -3/256, -57/4096, 45/4096, 0, 0, 0, 0, 0],
        [129/2048, 0, -117/1024, 207/16384, -135/16384, 15/64, 0, 0, 0, 0],
        [36/625, 0, 36/625, -288/15625, 4023/15625, -14592/78125, 33792/78125, 0, 0, 0],
        [51237/285719, 0, 4580136/2000033, -419616/2000033, -2586870/2000033, -8901120/2000033,
         3840000/1294139, 30234375/22000363, 0, 0],
        [-1396/1647, 0, -19396/1281, 944/1281, 105447/10675, 494336/19215, -213085184/15852375,
         -2575625/380457, 530621/617625, 0]]
  B := [179/3240, 0, 0, 0, 88/375, 0, 2097152/7239375, 3125/21384, 285719/1215000, 61/1560]
  C := [0, 1/6, 1/4, 1/2, 1/2, 3/16, 3/16, 3/5, 6/7, 1]
  E := [2897/103680, 0, 1/2, 1/40, -163/375, -128/225, 1320448/7239375, 211625/684288,
        -2120083/38880000, 673/49920, 0]
  P := [[1, -67/12, 392/27, -4205/216, 587/45, -280/81],
        [0, 0, 0, 0, 0, 0],
        [0, 0, 0, 0, 0, 0],
        [0, 0, 0, 0, 0, 0],
        [0, -432/25, 528/5, -5448/25, 23696/125, -896/15],
        [0, 0, 0, 0, 0, 0],
        [0, 524288/53625, -3670016/96525, 29360128/482625, -12058624/268125, 3670016/289575],
        [0, 3125/198, -59375/594, 1559375/7128, -59375/297, 175000/2673],
        [0, -16807/4500, 16807/675, -4823609/81000, 1025227/16875, -134456/6075],
        [0, 19764/302107, -160857/604214, -2003423/2416856, 3669821/1510535, -1233176/906321],
        [0, 45225/46478, -157380/23239, 844295/46478, -485844/23239, 198464/23239]]

/-- `Pr8` (prince.py:205-372). -/
def Pr8 : RKTable where
  s := 13
  order := 8
  orderSec := 6
  A := [[0, 0, 0, 0, 0, 0, 0, 0, 0, 0, 0, 0, 0],
        [933333333333333333333333333333/10000000000000000000000000000000, 0, 0, 0, 0, 0, 0, 0, 0,
         0, 0, 0, 0],
        [7/200, 21/200, 0, 0, 0, 0, 0, 0, 0, 0, 0, 0, 0],
        [7/50, -21/50, 14/25, 0, 0, 0, 0, 0, 0, 0, 0, 0, 0],
        [466666666666666666666666666667/10000000000000000000000000000000, 0,
         186666666666666666666666666667/1000000000000000000000000000000,
         466666666666666666666666666667/10000000000000000000000000000000, 0, 0, 0, 0, 0, 0, 0, 0,
         0],
        [68967899659863945578231292517/125000000000000000000000000000,
         -84177694515306122448979591837/50000000000000000000000000000,
         8034053465136054421768707483/6250000000000000000000000000,
         -51073625599793488824101068999/50000000000000000000000000000,
         13428346506013119533527696793/10000000000000000000000000000, 0, 0, 0, 0, 0, 0, 0, 0],
        [312147906037414965986394557823/5000000000000000000000000000000, 0,
         361299742319969032389075033/3125000000000000000000000000,
         -248173453254069484936831875607/1000000000000000000000000000000,
         238002410087919096209912536443/500000000000000000000000000000,
         69123134328358208955223880597/1000000000000000000000000000000, 0, 0, 0, 0, 0, 0, 0],
        [106350877192982456140350877193/2000000000000000000000000000000, 0,
         1686878109452736318407960199/15625000000000000000000000000,
         -455448717948717948717948717949/10000000000000000000000000000000,
         213141025641025641025641025641/10000000000000000000000000000000,
         7238180428861500384346414159/400000000000000000000000000000,
         -30000638885701745279840314999/2000000000000000000000000000000, 0, 0, 0, 0, 0, 0],
        [466308628714643752237737200143/10000000000000000000000000000000, 0,
         589926174413351732228314575591/10000000000000000000000000000000,
         -77136278385064278892855035029/2000000000000000000000000000000,
         231207294594081206081229649243/10000000000000000000000000000000,
         66504682211663496315072144531/5000000000000000000000000000000,
         -56191873784165359468938440581/5000000000000000000000000000000,
         -122386322651751569775273657731/10000000000000000000000000000000, 0, 0, 0, 0, 0],
        [272108843537414965986394557823/5000000000000000000000000000000, 0,
         540333156097836021965644146011/1000000000000000000000000000000,
         113688418211922452259942034977/1000000000000000000000000000000,
         713352588752466984012721183007/10000000000000000000000000000000,
         266871342610584511136988434687/50000000000000000000000000000000,
         141741045931070379958169549861/1000000000000000000000000000000,
         -196761870671218451335856598037/500000000000000000000000000000, 0, 0, 0, 0, 0],
        [-25940248582906658528380592843/10000000000000000000000000000, 0,
         -88591198080838169657988987443/5000000000000000000000000000,
         -720291569558395826074056304001/100000000000000000000000000000,
         149881506312855377166637034571/10000000000000000000000000000,
         43242209202309167357886303883/62500000000000000000000000000,
         -71579553906147432099663790337/10000000000000000000000000000,
         113296790773526385017400302977/50000000000000000000000000000,
         32939234769385229272161942471/2500000000000000000000000000,
         87029597178197949030802629589/20000000000000000000000000000, 0, 0, 0],
        [106825136567513030976007778711/50000000000000000000000000000, 0,
         30681629365959254951349298603/2500000000000000000000000000,
         114413252437566577073609922417/25000000000000000000000000000,
         -12836718543687090186778909671/1250000000000000000000000000,
         -37629577005440390399992522631/100000000000000000000000000000,
         513017034156407434494186004831/100000000000000000000000000000,
         481244669058742571216756392183/5000000000000000000000000000000,
         -103442766767566431388674762321/10000000000000000000000000000,
         -259772774629732852847083885323/100000000000000000000000000000,
         255571177445599178571884809579/1000000000000000000000000000000, 0, 0],
        [-135769285555186849895417607979/100000000000000000000000000000, 0,
         -51848880697594401985846769119/10000000000000000000000000000,
         -944146275842569180247520769719/1000000000000000000000000000000,
         2315809227161911032629605067/400000000000000000000000000,
         -35133252893728153033774016703/400000000000000000000000000000,
         -53269980917879320756691248069/10000000000000000000000000000,
         -329419214246872762413611365341/100000000000000000000000000000,
         28499927232121346916609110017/4000000000000000000000000000,
         105823546498322936130817132067/25000000000000000000000000000,
         -101048908671370078060301040023/250000000000000000000000000000,
         452499466462306516458275969143/1000000000000000000000000000000, 0]]
  B := [101794429109647960346134352579/10000000000000000000000000000000, 0, 0, 0,
        342368385444252768240392979897/1000000000000000000000000000000, 0,
        -293579170210195254952533184107/1000000000000000000000000000000,
        -995353542504925310796528261447/10000000000000000000000000000000,
        207437934572206346408597479637/1000000000000000000000000000000,
        135755300310193653291374092451/250000000000000000000000000000,
        107235531414217311653209089107/1000000000000000000000000000000,
        72270369097143788501813193171/500000000000000000000000000000,
        38331290683984373526250270207/1000000000000000000000000000000]
  C := [0, 7/75, 7/50, 7/25, 7/25, 19/40, 19/40, 7/50, 2/25, 8/15, 4/5, 22/25, 1]
  E := [-693087687114485050031292475821/10000000000000000000000000000000, 0, 0, 0,
        -1491378921691039360927730185887/1000000000000000000000000000000, 0,
        4073327783436378862570459081297/1000000000000000000000000000000,
        8481058377001087364470195818907/10000000000000000000000000000000,
        -1899802077936637448089639636989/10000000000000000000000000000000,
        -887869777341841508726807945461/250000000000000000000000000000,
        863585415305301997159453172379/1000000000000000000000000000000,
        -272270369097143788501813193171/500000000000000000000000000000,
        61668709316015626473749729793/1000000000000000000000000000000, 0]
  P := [[1, -141239093743887554093438640359/10000000000000000000000000000,
         42008383097848229015730793423/500000000000000000000000000,
         -62770999366752746212117149827/250000000000000000000000000,
         386512292414528095658571249453/1000000000000000000000000000,
         -145574427119244269139310717071/500000000000000000000000000,
         212094704781436724106089186553/2500000000000000000000000000],
        [0, 0, 0, 0, 0, 0, 0],
        [0, 0, 0, 0, 0, 0, 0],
        [0, 0, 0, 0, 0, 0, 0],
        [0, 510665844292158893795819184009/100000000000000000000000000000,
         -400124279090280806878089311459/10000000000000000000000000000,
         184440467426588995836723836551/1000000000000000000000000000,
         -378973592698221239000827838379/1000000000000000000000000000,
         85384695309072409482652920837/250000000000000000000000000,
         -55878759056553325124208274617/500000000000000000000000000],
        [0, 0, 0, 0, 0, 0, 0],
        [0, -10375742813476985509397251817/5000000000000000000000000000,
         -992180312887292232371883540967/100000000000000000000000000000,
         462799082458947267661866194021/5000000000000000000000000000,
         -107989748810194405272146083423/500000000000000000000000000,
         101143723451453284255534739223/500000000000000000000000000,
         -134328786505898174657009595631/2000000000000000000000000000],
        [0, -42836772708397144318809389521/2000000000000000000000000000,
         11271912832624299146181512947/50000000000000000000000000,
         -884829314979143198157611115581/1000000000000000000000000000,
         78730428401646131782888937961/50000000000000000000000000,
         -129008703344712019545777930343/100000000000000000000000000,
         396188374740802854662306442791/1000000000000000000000000000],
        [0, 157590267662526705686789233827/5000000000000000000000000000,
         -271413850918964647969857885217/1000000000000000000000000000,
         952348654179583905315594876659/1000000000000000000000000000,
         -79637117675523975190141289601/50000000000000000000000000,
         62897797301877231113818472173/50000000000000000000000000,
         -37745901138561751061022989217/100000000000000000000000000],
        [0, 482850767611133451223603182801/500000000000000000000000000000,
         129274299904241623819239369537/10000000000000000000000000000,
         -100480323438077279181257364969/1000000000000000000000000000,
         61458558870994900371372755463/250000000000000000000000000,
         -242964579882849927174983253853/1000000000000000000000000000,
         842605575125419501995439500197/10000000000000000000000000000],
        [0, 835557991425411575752552757343/10000000000000000000000000000000,
         -76397817694155531077053817103/200000000000000000000000000000,
         34193592342458696631246792243/20000000000000000000000000000,
         -528883927213581506454906269727/100000000000000000000000000000,
         182736644274318791241209253631/25000000000000000000000000000,
         -332463729521741760719842416123/100000000000000000000000000000],
        [0, -633380888284421342020961449909/10000000000000000000000000000000,
         -109526815610176510133599623253/100000000000000000000000000000,
         215476662403099774653624004451/25000000000000000000000000000,
         -230612339267248796358151679261/10000000000000000000000000000,
         32468520751233838035719132097/1250000000000000000000000000,
         -12786877734077108707954223957/1250000000000000000000000000],
        [0, -284608939125612693786991431373/1000000000000000000000000000000,
         53736114363848304225453599559/12500000000000000000000000000000,
         260168628244223300025276730007/50000000000000000000000000000,
         -73442833310705690966124669367/5000000000000000000000000000,
         154411838034484010111998278429/10000000000000000000000000000,
         -281867418276561980775261157799/50000000000000000000000000000],
        [0, 145711004722520681639298244677/500000000000000000000000000000,
         438587473682482536753098062593/1000000000000000000000000000000,
         -424371044593114215778385327383/50000000000000000000000000000,
         237789877586610534396939312211/10000000000000000000000000000,
         -65767931959225977240225293741/2500000000000000000000000000,
         10285596433764097871932198271/1000000000000000000000000000]]

/-- `Pr9` (prince.py:449-746). -/
def Pr9 : RKTable where
  s := 17
  order := 9
  orderSec := 7
  A := [[0, 0, 0, 0, 0, 0, 0, 0, 0, 0, 0, 0, 0, 0, 0, 0, 0],
        [12962962962962962962962962963/125000000000000000000000000000, 0, 0, 0, 0, 0, 0, 0, 0, 0,
         0, 0, 0, 0, 0, 0, 0],
        [388888888888888888888888888889/10000000000000000000000000000000,
         116666666666666666666666666667/1000000000000000000000000000000, 0, 0, 0, 0, 0, 0, 0, 0,
         0, 0, 0, 0, 0, 0, 0],
        [38888888888888888888888888889/250000000000000000000000000000,
         -466666666666666666666666666667/1000000000000000000000000000000,
         311111111111111111111111111111/500000000000000000000000000000, 0, 0, 0, 0, 0, 0, 0, 0,
         0, 0, 0, 0, 0, 0],
        [518518518518518518518518518519/10000000000000000000000000000000, 0,
         207407407407407407407407407407/1000000000000000000000000000000,
         518518518518518518518518518519/10000000000000000000000000000000, 0, 0, 0, 0, 0, 0, 0, 0,
         0, 0, 0, 0, 0],
        [35976001511715797430083144369/25000000000000000000000000000,
         -429081632653061224489795918367/100000000000000000000000000000,
         279697656840513983371126228269/100000000000000000000000000000,
         -379589677140697548860814166937/100000000000000000000000000000,
         112378522837706511175898931001/25000000000000000000000000000, 0, 0, 0, 0, 0, 0, 0, 0, 0,
         0, 0, 0],
        [57813681027966742252456538171/500000000000000000000000000000, 0,
         -209484298770013055727341441627/5000000000000000000000000000000,
         -102048779829392074290033473707/100000000000000000000000000000,
         29627065111758989310009718173/20000000000000000000000000000,
         109848484848484848484848484849/1000000000000000000000000000000, 0, 0, 0, 0, 0, 0, 0, 0,
         0, 0, 0],
        [601213282247765006385696040869/10000000000000000000000000000000, 0,
         58038720538720538720538720539/500000000000000000000000000000,
         -408333333333333333333333333333/10000000000000000000000000000000,
         187962962962962962962962962963/10000000000000000000000000000000,
         47482112377574129456808806789/6250000000000000000000000000000,
         -620331469003684620014386165793/100000000000000000000000000000000, 0, 0, 0, 0, 0, 0, 0,
         0, 0, 0],
        [150374818569669247009148486981/2000000000000000000000000000000, 0,
         19286108747670644657398518999/6250000000000000000000000000,
         51388512169946864755968600337/50000000000000000000000000000,
         -176293943981111874800251164949/250000000000000000000000000000,
         -69694634536499601685641631109/2500000000000000000000000000000,
         285805153481527740360777028619/1000000000000000000000000000000,
         -74787164401338886607330625161/25000000000000000000000000000, 0, 0, 0, 0, 0, 0, 0, 0, 0],
        [35709609429978888106966924701/2000000000000000000000000000000, 0,
         516426091974317668823733047791/100000000000000000000000000000000,
         -171840658648245842348302002463/50000000000000000000000000000000,
         232372133623022296941501964109/100000000000000000000000000000000,
         514201281710644115584844336227/1000000000000000000000000000000000,
         -433506924343872955710236185757/1000000000000000000000000000000000,
         -49666703884117450601109514267/25000000000000000000000000000000, 0, 0, 0, 0, 0, 0, 0, 0,
         0],
        [-118757288815909505564677978471/100000000000000000000000000000, 0,
         113239724969350324395658487817/1000000000000000000000000000000,
         415212324887617856117414455329/10000000000000000000000000000000,
         655529796136042083177053423077/1000000000000000000000000000000,
         -35921334344221182305981771601/25000000000000000000000000000000,
         50120866241769657823310092071/10000000000000000000000000000000,
         -88487934915548380623853575047/125000000000000000000000000000,
         143786921961965595659720627917/500000000000000000000000000000,
         33214064067633105286205774023/20000000000000000000000000000, 0, 0, 0, 0, 0, 0, 0],
        [29326637612934925469041347559/1000000000000000000000000000000, 0,
         14228023709859329686352505399/62500000000000000000000000000,
         642188982905375335427504387651/10000000000000000000000000000000,
         454015730358590118030630636463/10000000000000000000000000000000,
         -794683657147007110737301019097/1000000000000000000000000000000000,
         4972247029661950409712709001/2000000000000000000000000000000,
         -7637749732660215621222772163/200000000000000000000000000000,
         -635233112974332282906394142683/1000000000000000000000000000000000,
         19085658513444185311503915701/625000000000000000000000000000, 0, 0, 0, 0, 0, 0, 0],
        [-12176278536711024147827189401/200000000000000000000000000000, 0,
         -443438802229705377088167804351/100000000000000000000000000000000,
         97184052482574110191941079351/2000000000000000000000000000000,
         -123883926446739678566391896451/1000000000000000000000000000000,
         -270270531489075422255584605643/50000000000000000000000000000000,
         55595083735777338840087174121/25000000000000000000000000000000,
         9946096922559635360545657587/250000000000000000000000000000,
         400102754975348157308270345129/1000000000000000000000000000000000,
         8718640110113786371281610909/62500000000000000000000000000,
         27956289582392329542340374809/250000000000000000000000000000000,
         29616413032193205054509622737/500000000000000000000000000000, 0, 0, 0, 0, 0],
        [-54147442204788723287261786771/5000000000000000000000000000, 0,
         -458555384056239216218818778683/10000000000000000000000000000,
         -26438689494374132167798557817/2000000000000000000000000000,
         305914618343960445376558308999/10000000000000000000000000000,
         190922815696523943781555810831/1000000000000000000000000000000,
         -188814404888067339077866227303/100000000000000000000000000000,
         2120320047452681450999642799/100000000000000000000000000,
         39593523129210857452032224201/25000000000000000000000000000,
         50717035483462977469932823883/5000000000000000000000000000,
         -46952944851860889957150137327/125000000000000000000000000000,
         -42935757564857296045563543771/5000000000000000000000000000,
         43828616142110570470423266751/2500000000000000000000000000, 0, 0, 0, 0],
        [123847409176679080375217053279/100000000000000000000000000000, 0,
         109333898278372589827844780651/100000000000000000000000000000,
         331536159352838127791365049203/1000000000000000000000000000000,
         -104968074969306530601478253043/50000000000000000000000000000,
         -632995160818675610148594925667/100000000000000000000000000000000,
         426701326446042064152854093079/5000000000000000000000000000000,
         -356783297744873131792793750559/5000000000000000000000000000000,
         -9595203030587139849125414077/400000000000000000000000000000,
         -33036369315431829272414550153/20000000000000000000000000000,
         66245576312291875410038570643/10000000000000000000000000000000,
         158274616357353025449630677489/100000000000000000000000000000,
         35453589704219972611152342181/250000000000000000000000000000,
         467182052039254811752011582037/50000000000000000000000000000000, 0, 0, 0],
        [-34570976685429981296166957471/2000000000000000000000000000, 0,
         -851259795469259804679437273731/100000000000000000000000000000,
         -140275891247837684961805993661/50000000000000000000000000000,
         175959502229156965358743845761/5000000000000000000000000000,
         736701829077372132621075400047/10000000000000000000000000000000,
         -3114613676701734020916130937/2500000000000000000000000000,
         634431710970183708662917963423/1000000000000000000000000000000,
         -299382194728825930237778557253/100000000000000000000000000000,
         258384480400235896878583385841/10000000000000000000000000000,
         95056382793035452246930282763/125000000000000000000000000000,
         -272531371870126046405092063507/10000000000000000000000000000,
         -766905838615669874875007702991/100000000000000000000000000000,
         -430717080246156504921654666097/10000000000000000000000000000000,
         1560742678195840094608853993/250000000000000000000000000, 0, 0],
        [59588151775284197727788376873/2500000000000000000000000000, 0,
         77738756188986200797865735259/10000000000000000000000000000,
         257266456224187218683628421487/100000000000000000000000000000,
         -213650644666269814104752215077/5000000000000000000000000000,
         -684309506233548912384135730021/10000000000000000000000000000000,
         65225574830254810423448150701/50000000000000000000000000000,
         334387872500134107823468680391/100000000000000000000000000000,
         36359447411460638447895722957/12500000000000000000000000000,
         -87966961317853459939221213091/2500000000000000000000000000,
         -99890744535759211065253046051/250000000000000000000000000000,
         41896877336206606661700922323/1250000000000000000000000000,
         248307880942053226108210591581/25000000000000000000000000000,
         418890535438977240821677452707/5000000000000000000000000000000,
         -299324905754581292039809180251/50000000000000000000000000000,
         988633847406948308075244574403/10000000000000000000000000000000, 0]]
  B := [153899635237706180368959766433/5000000000000000000000000000000, 0, 0, 0, 0, 0, 0,
        927611792928056326667152622109/10000000000000000000000000000000,
        122968704959599330688571533231/10000000000000000000000000000000, 0,
        77216259832560767754789962011/500000000000000000000000000000,
        131490918184545408923544435653/500000000000000000000000000000,
        27190326299229955107821437271/250000000000000000000000000000,
        36779163552530693638783275279/6250000000000000000000000000000,
        13013540099944286438948936639/50000000000000000000000000000,
        429012449776118791099335675107/10000000000000000000000000000000,
        144648243938292527657817312159/5000000000000000000000000000000]
  C := [0, 14/135, 7/45, 14/45, 14/45, 29/45, 29/45, 7/45, 3/4, 1/50, 13/15, 9/25, 2/21, 22/45,
        7/11, 14/15, 1]
  E := [-99044040390742243358608431481/625000000000000000000000000000, 0, 0, 0, -19/20, 0, 1/40,
        3282067537372393266555807774651/10000000000000000000000000000000,
        4610410597743072421533856372099/10000000000000000000000000000000, 1/4,
        -395236160271094822369278520569/2000000000000000000000000000000,
        460615870831599283393776091537/500000000000000000000000000000,
        -261107338245073333222761084961/1000000000000000000000000000000,
        1101828733894713141697739073563/50000000000000000000000000000000,
        -474133550652477344886652896083/1000000000000000000000000000000,
        114477430208158262396442880029/10000000000000000000000000000000,
        27956950981038067497136330591/1250000000000000000000000000000, 0]
  P := [[1, -277735116893550678899410577323/10000000000000000000000000000,
         786436839430605088434126703/3125000000000000000000000,
         -108626391924281399602886402221/100000000000000000000000000,
         50671307984977108588059209171/20000000000000000000000000,
         -324230250171399947308061311167/100000000000000000000000000,
         6657977653488222618129484043/3125000000000000000000000,
         -560407324409664217267823913703/1000000000000000000000000000],
        [0, 0, 0, 0, 0, 0, 0, 0],
        [0, 0, 0, 0, 0, 0, 0, 0],
        [0, 0, 0, 0, 0, 0, 0, 0],
        [0, -23739472975839810592168501141/2000000000000000000000000000,
         102459915482709922665427835603/1000000000000000000000000000,
         -116095838290346893556824162957/1000000000000000000000000000,
         -26825599062262896053194867807/40000000000000000000000000,
         97241860785834517462491777443/50000000000000000000000000,
         -23180653838603826272917412937/12500000000000000000000000,
         757200909029681287626137199/1250000000000000000000000],
        [0, 0, 0, 0, 0, 0, 0, 0],
        [0, 132691776965844682509282397381/500000000000000000000000000000,
         -96239305883473270632919186797/25000000000000000000000000000,
         198583488086398818369789716893/10000000000000000000000000000,
         -489425851614840465067296601841/10000000000000000000000000000,
         19552502438575411565726284811/312500000000000000000000000,
         -200430477519427519559513402023/5000000000000000000000000000,
         101865127346955930316274601813/10000000000000000000000000000],
        [0, 410881688594931446561283260961/1000000000000000000000000000000,
         156010000516331407551199824847/5000000000000000000000000000,
         -124853850656337494829799217443/500000000000000000000000000,
         778195589210511825395485214743/1000000000000000000000000000,
         -58600538960259603980013737327/50000000000000000000000000,
         212633098703997522620813446519/250000000000000000000000000,
         -59632406030300813485750088091/250000000000000000000000000],
        [0, 414906689983933914089354123183/100000000000000000000000000000,
         -7525135376526503640316532873/125000000000000000000000000,
         31340256450693611124013315901/100000000000000000000000000,
         -781911886672181247720231054571/1000000000000000000000000000,
         101249775080717639184821281449/100000000000000000000000000,
         -328330355499780847632207088277/500000000000000000000000000,
         16873659534049908981100683653/100000000000000000000000000],
        [0, 135043979487129440257398047653/5000000000000000000000000000,
         -19268761716685428930719818249/62500000000000000000000000,
         144655177948042279851428814073/100000000000000000000000000,
         -87925043527596892864043183089/25000000000000000000000000,
         460841657049002751224578802649/100000000000000000000000000,
         -307258687363984008871483884247/100000000000000000000000000,
         815911656342806467356527481271/1000000000000000000000000000],
        [0, -6725475925072796910705483211/3125000000000000000000000000,
         314196745583973862967039208679/10000000000000000000000000000,
         -1033311569012025316576070749/6250000000000000000000000,
         83682861010061916683777434391/200000000000000000000000000,
         -138414395443889793418924452177/250000000000000000000000000,
         370441653709359610572530943729/1000000000000000000000000000,
         -494908078424474697066587867263/5000000000000000000000000000],
        [0, 23066999450989358407920619263/2000000000000000000000000000,
         -118814083869203384405600072643/1000000000000000000000000000,
         308134567500691900387880121103/1000000000000000000000000000,
         116718176013094651537567503791/5000000000000000000000000000,
         -966772385163294883072158319407/1000000000000000000000000000,
         28948721759999173675431771713/25000000000000000000000000,
         -415111121959905098621019319093/1000000000000000000000000000],
        [0, 107818271060171647762711308899/50000000000000000000000000000,
         223094376381637869726414340883/10000000000000000000000000000,
         -53715172909019702406974249177/250000000000000000000000000,
         21175674135374670623953868559/31250000000000000000000000,
         -5070133486675086626747201851/5000000000000000000000000,
         731016153941917335279615104043/1000000000000000000000000000,
         -25513422382122620047033238193/125000000000000000000000000],
        [0, 508899586642482571660412314383/10000000000000000000000000000000,
         -742202087910459104358965739767/1000000000000000000000000000000,
         442595830228471928946003912407/100000000000000000000000000000,
         -124465247279828531500574820871/10000000000000000000000000000,
         36041156981985133677423727197/2000000000000000000000000000,
         -1011927186739172353002751057/78125000000000000000000000,
         91246318009539722462398068161/25000000000000000000000000000],
        [0, -221500736072646133466397097477/50000000000000000000000000000,
         621578560270965455283632655849/10000000000000000000000000000,
         -153838440182214052788647973697/500000000000000000000000000,
         715128713595346851864396276583/1000000000000000000000000000,
         -105237695350236857071300254779/125000000000000000000000000,
         121749370221171868515295547481/250000000000000000000000000,
         -13751915227169512613517103223/125000000000000000000000000],
        [0, 319873195675099914752833543441/500000000000000000000000000000,
         -892447331136320993314728274381/100000000000000000000000000000,
         439375977273632452580211911017/10000000000000000000000000000,
         -50027698761437990796001818469/500000000000000000000000000,
         113223500868691469540904428159/1000000000000000000000000000,
         -609041019096722296163008301721/10000000000000000000000000000,
         60630145007420591960651985371/5000000000000000000000000000],
        [0, -68587303713182968689084668001/2000000000000000000000000000000,
         51131996394755041261341292247/50000000000000000000000000000,
         -767553082732108617644153808883/100000000000000000000000000000,
         287682707734889980917298956223/10000000000000000000000000000,
         -109060940026013616476247478449/2000000000000000000000000000,
         487822504767962797310095764161/10000000000000000000000000000,
         -20379921296510292804406143467/1250000000000000000000000000],
        [0, 45079310103374101284304267947/1000000000000000000000000000000,
         -69985518616388790752567417627/50000000000000000000000000000,
         14124495486561593440413499159/1250000000000000000000000000,
         -440393736681488335868754595851/10000000000000000000000000000,
         856383538309449928529333409909/10000000000000000000000000000,
         -393144481067109747435062921901/5000000000000000000000000000,
         135424753618004585911954738659/5000000000000000000000000000]]

end Extensisq
