import Verif.Model.Nystrom

/-!
# Coefficient tables of the Nystrom methods

Generated by `/verif/tools/gen_nystrom.py` from the class bodies in `/repo/extensisq` by exact evaluation of
the literals. The rounding of every coefficient to binary64 is not modelled; the decimal tables of
interpolant 3 of `Fi5N` are taken as exact decimals.
-/

namespace Extensisq

/-- `MR6NN` (mikkawy.py:87-117). `Ap` is not defined: velocity independent problems only. -/
def MR6NN : NyTable where
  s := 6
  order := 6
  orderSec := 4
  hasAp := false
  A := [[0, 0, 0, 0, 0, 0],
        [1/11858, 0, 0, 0, 0, 0],
        [-7189/17118, 4070/8559, 0, 0, 0, 0],
        [4007/2403, -589655/355644, 25217/118548, 0, 0, 0],
        [-4477057/843750, 13331783894/2357015625, -281996/5203125, 563992/7078125, 0, 0],
        [17265/2002, -1886451746/212088107, 22401/31339, 2964/127897, 178125/5428423, 0]]
  Ap := []
  B := [-341/780, 386683451/661053840, 2853/11840, 267/3020, 9375/410176, 0]
  Bp := [-341/780, 29774625727/50240091840, 8559/23680, 801/3020, 140625/820352, 847/18240]
  C := [0, 1/77, 1/3, 2/3, 13/15, 1]
  E := [-1559/780, 466653803/220351280, -5389/35520, 178/6795, 23875/3691584, 0, 0]
  Ep := [-1559/780, 35932342831/16746697280, -5389/23680, 178/2265, 119375/2461056, -847/18240, 0]

/-- `Fi4N` (fine.py:89-112). -/
def Fi4N : NyTable where
  s := 5
  order := 4
  orderSec := 3
  hasAp := true
  A := [[0, 0, 0, 0, 0],
        [2/81, 0, 0, 0, 0],
        [1/36, 1/36, 0, 0, 0],
        [9/128, 0, 27/128, 0, 0],
        [11/60, -3/20, 9/25, 8/75, 0]]
  Ap := [[0, 0, 0, 0, 0],
         [2/9, 0, 0, 0, 0],
         [1/12, 1/4, 0, 0, 0],
         [69/128, -243/128, 135/64, 0, 0],
         [-17/12, 27/4, -27/5, 16/15, 0]]
  B := [19/180, 0, 63/200, 16/225, 1/120]
  Bp := [1/9, 0, 9/20, 16/45, 1/12]
  C := [0, 2/9, 1/3, 3/4, 1]
  E := [25/1116, 0, -63/1240, 64/1395, -13/744, 0]
  Ep := [2/125, 0, -27/625, 32/625, -3/125, 0]

/-- `Fi5N` (fine.py:222-254). -/
def Fi5N : NyTable where
  s := 6
  order := 5
  orderSec := 4
  hasAp := true
  A := [[0, 0, 0, 0, 0, 0],
        [32/1521, 0, 0, 0, 0, 0],
        [4/169, 4/169, 0, 0, 0, 0],
        [175/5184, 0, 1625/5184, 0, 0, 0],
        [-342497279/5618900760, 6827067/46824173, 35048741/102161832, -2201514/234120865, 0, 0],
        [-7079/52152, 767/2173, 14027/52152, 30/2173, 0, 0]]
  Ap := [[0, 0, 0, 0, 0, 0],
         [8/39, 0, 0, 0, 0, 0],
         [1/13, 3/13, 0, 0, 0, 0],
         [7385/6912, -9425/2304, 13325/3456, 0, 0, 0],
         [223324757/91364240, -174255393/18272848, 382840094/46824173, -39627252/234120865, 0, 0],
         [108475/36464, -9633/848, 7624604/806183, 8100/49979, -4568212/19446707, 0]]
  B := [4817/51600, 0, 388869/1216880, 3276/23575, -1142053/22015140, 0]
  Bp := [4817/51600, 0, 1685099/3650640, 19656/23575, -53676491/88060560, 53/240]
  C := [0, 8/39, 4/13, 5/6, 43/47, 1]
  E := [8151/2633750, 0, -1377519/186334750, 586872/28879375, -36011118/2247378875, 0, 0]
  Ep := [8151/2633750, 0, -5969249/559004250, 3521232/28879375, -846261273/4494757750,
         4187/36750, -1/25]

/-- `Mu5Nmb` (murua.py:105-171). -/
def Mu5Nmb : NyTable where
  s := 9
  order := 5
  orderSec := 4
  hasAp := true
  A := [[0, 0, 0, 0, 0, 0, 0, 0, 0],
        [594441/29598818, 0, 0, 0, 0, 0, 0, 0, 0],
        [594441/29598818, 0, 0, 0, 0, 0, 0, 0, 0],
        [-311625081/28869248936, 128/8219, 1015645542/10554116159, 0, 0, 0, 0, 0, 0],
        [1852480471/26299626569, -247/14069, 648800762/5897141541, 519849979/8963946221, 0, 0, 0,
         0, 0],
        [1852480471/26299626569, -247/14069, 648800762/5897141541, 519849979/8963946221, 0, 0, 0,
         0, 0],
        [229929851/7158517178, 113395809/8665398238, 4865737279/19748497543,
         340133672/10137556453, 738/11587, 509108839/15737542787, 0, 0, 0],
        [229929851/7158517178, 113395809/8665398238, 4865737279/19748497543,
         340133672/10137556453, 738/11587, 509108839/15737542787, 0, 0, 0],
        [164505448/2653157365, 0, 9357192/40412735, 736403089/7677655029, 960089/17896194,
         482653907/11393392643, -47281957/150822000, 6715245221/20471724521, 0]]
  Ap := [[0, 0, 0, 0, 0, 0, 0, 0, 0],
         [771/3847, 0, 0, 0, 0, 0, 0, 0, 0],
         [771/7694, 771/7694, 0, 0, 0, 0, 0, 0, 0],
         [-264272222/4845505509, -9458865980/12714902623, 17133165419/13729279360, 0, 0, 0, 0, 0,
          0],
         [1943604853/18116134489, -2470367896/7636570485, 1733951147/3918733571,
          4613437932/10523350595, 0, 0, 0, 0, 0],
         [369952551/2046485744, 281630106828/143708239525, -9868262031/5606899429,
          208606720/5597531799, 792516107/3209667255, 0, 0, 0, 0],
         [-2089737154/15083636501, -39924138556/8175090533, 72922890855/14010113917,
          9484193351/15493195043, -17895265139/12412283353, 278232/177835, 0, 0, 0],
         [-1762013041/13188190032, -22636373880/4795132451, 30527401913/6048941340,
          11564353310/19632283007, -50677425731/36595197965, 12408/8167, 10722067/5782709432, 0, 0],
         [8034174097/12261534992, 72032427203/6782716235, -90566218637/8185393121,
          18770105843/41171085325, 28010344030/6199889941, -21917292279/4540377286,
          -236637914115/8183370127, 71217630373/2409299224, 0]]
  B := [164505448/2653157365, 0, 9357192/40412735, 736403089/7677655029, 960089/17896194,
        482653907/11393392643, -47281957/150822000, 6715245221/20471724521, 0]
  Bp := [164505448/2653157365, 0, 3042/10505, 1586146904/9104113535, 4394/27465,
         2081836558/16479128289, -50461/13230, 13928550541/3490062596, 91464477/8242174145]
  C := [0, 771/3847, 771/3847, 3051/6788, 4331/6516, 4331/6516, 10463/11400, 10463/11400, 1]
  E := [121704204177827602/337440389415705265, 0, -6390786838598848/8246112250844215,
        3706385035266708827513/9805759474405130838756, 236746851315811/3695328475502184,
        18604617208931/148478692923576, 7348816069310297/752748982272000,
        -47512996955147431990777/4791718040503385139600, 0, 0]
  Ep := [121704204177827602/337440389415705265, 0, -2077629011248/2143517611345,
         1176079029881285543/1712964935646165355, 541754808503/2835580475370,
         12315455173/32958256578, 7842920031281/66030612480,
         -4322366872563766495/35829041941600132, 8150709668/8242174145, 23/100]

/-- `MR6NN.P` (mikkawy.py:119-127). -/
def MR6NN_P : List (List ℚ) :=
  [[1/2, -445/39, 2095/78, -1231/52, 1421/195],
   [0, 56490936887/5024009184, -280556420221/10048018368, 419129707843/16746697280,
    -195064224509/25120045920],
   [0, 951/2368, 2853/4736, -31383/23680, 6657/11840],
   [0, -89/151, 267/151, -4539/3020, 623/1510],
   [0, 228125/410176, -1790625/820352, 2184375/820352, -415625/410176],
   [0, 847/1824, -5929/3648, 11011/6080, -5929/9120],
   [0, -2/3, 5/2, -3, 7/6]]

/-- `MR6NN.Pp` (mikkawy.py:128-128). -/
def MR6NN_Pp : List (List ℚ) :=
  [[1, -445/13, 4190/39, -6155/52, 2842/65],
   [0, 56490936887/1674669728, -280556420221/2512004592, 419129707843/3349339456,
    -195064224509/4186674320],
   [0, 2853/2368, 2853/1184, -31383/4736, 19971/5920],
   [0, -267/151, 1068/151, -4539/604, 1869/755],
   [0, 684375/410176, -1790625/205088, 10921875/820352, -1246875/205088],
   [0, 847/608, -5929/912, 11011/1216, -5929/1520],
   [0, -2, 10, -15, 7]]

/-- `Fi5N.C_extra1` (fine.py:258-258). -/
def Fi5N_C_extra1 : List ℚ :=
  [2/5, 1/5]

/-- `Fi5N.A_extra1` (fine.py:259-265). -/
def Fi5N_A_extra1 : List (List ℚ) :=
  [[3166724675977/89400687626250, 12182/175275, -2308196389073/59333908961250,
    113223739712/2656609580625, -4985173058548/281912811350625, 0, -108322/9884875, 0, 0],
   [13703589067379/1021293449694000, -16588/178955775, 393366167467741/44058124399590000,
    -129051960428/18967820851875, 286445641484101/88563993965842500, 0, 185739/141153250, 0, 0]]

/-- `Fi5N.Ap_extra1` (fine.py:266-272). -/
def Fi5N_Ap_extra1 : List (List ℚ) :=
  [[-153602563/3630543750, 4/5, -15809974379/36693821250, 25076304/131584375,
    -20756397983/250144464375, 0, -251893/7317375, 0, 0],
   [549292232911/4942380225000, 0, 38673447228481/349667653965000, -14447155986/237691990625,
    239970566676929/8434666091985000, 0, 48691361/4597563000, 0, 0]]

/-- `Fi5N.P1` (fine.py:273-288). -/
def Fi5N_P1 : List (List ℚ) :=
  [[1/2, -65425102193/34422618000, 246336178993/68845236000, -17271401477/5737103000,
    2646330829/2868551500],
   [0, 0, 0, 0, 0],
   [0, -103408733716249/21918241774800, 36216248499769/2087451597600,
    -34348334365943/1826520147900, 11946681497647/1826520147900],
   [0, 10008729576/15727000375, -45252884088/15727000375, 67501517184/15727000375,
    -28901603736/15727000375],
   [0, -42869319978551/58745639878800, 26279956317109/8392234268400,
    -5270387298308/1223867497475, 103642379853661/58745639878800],
   [0, 10265285443/27377989200, -14253109853/9125996400, 1166320544/570374775,
    -2474620297/3041998800],
   [0, -102497539/608399760, 451530737/608399760, -659633561/608399760, 899768737/1825199280],
   [0, 39325/31704, -96525/21136, 53625/10568, -7150/3963],
   [0, 25525/4848, -25525/1616, 25525/1616, -25525/4848]]

/-- `Fi5N.Pp1` (fine.py:289-289). -/
def Fi5N_Pp1 : List (List ℚ) :=
  [[1, -65425102193/11474206000, 246336178993/17211309000, -17271401477/1147420600,
    7938992487/1434275750],
   [0, 0, 0, 0, 0],
   [0, -103408733716249/7306080591600, 36216248499769/521862899400, -34348334365943/365304029580,
    11946681497647/304420024650],
   [0, 30026188728/15727000375, -181011536352/15727000375, 67501517184/3145400075,
    -173409622416/15727000375],
   [0, -42869319978551/19581879959600, 26279956317109/2098058567100, -5270387298308/244773499495,
    103642379853661/9790939979800],
   [0, 10265285443/9125996400, -14253109853/2281499100, 1166320544/114074955,
    -2474620297/506999800],
   [0, -102497539/202799920, 451530737/152099940, -659633561/121679952, 899768737/304199880],
   [0, 39325/10568, -96525/5284, 268125/10568, -14300/1321],
   [0, 25525/1616, -25525/404, 127625/1616, -25525/808]]

/-- `Fi5N.C_extra2` (fine.py:299-299). -/
def Fi5N_C_extra2 : List ℚ :=
  [1/2, 1/2]

/-- `Fi5N.A_extra2` (fine.py:300-305). -/
def Fi5N_A_extra2 : List (List ℚ) :=
  [[43312501780291/1275109236086400, 544043/4374864, -39526111133/929968205760,
    -72268815551/18945421466400, 15249672887173/919058778293760, 0, -936943/260282880, 0, 0],
   [78787/1651200, 0, 10240217/116820480, -5733/94300, 65097021/939312640, -53/1536, 1/64, 0, 0]]

/-- `Fi5N.Ap_extra2` (fine.py:306-312). -/
def Fi5N_Ap_extra2 : List (List ℚ) :=
  [[-10074474119/31414368960, 2, -2024048255/1461229504, 262779483/503599720,
    -27782604453665/107223524134272, 0, -16606877/292226688, 0, 0],
   [70201889/791750400, 0, 86794851169/168046260480, 26319519/45216850,
    -895699605317/1351201232640, 867730151/2728776960, -192743/1624272, -429/1918, 0]]

/-- `Fi5N.P2` (fine.py:313-323). -/
def Fi5N_P2 : List (List ℚ) :=
  [[1/2, -2121/1720, 4213/2580, -3783/3440, 1261/4300],
   [0, 0, 0, 0, 0],
   [0, 388869/121688, -648115/91266, 7388511/1216880, -1685099/912660],
   [0, 6552/4715, -29484/4715, 39312/4715, -78624/23575],
   [0, -1142053/2201514, 67381127/17612112, -170165897/29353520, 53676491/22015140],
   [0, 0, -53/48, 159/80, -53/60],
   [0, -1/6, 1, -3/2, 2/3],
   [0, 0, 0, 0, 0],
   [0, -8/3, 8, -8, 8/3]]

/-- `Fi5N.Pp2` (fine.py:324-336). -/
def Fi5N_Pp2 : List (List ℚ) :=
  [[1, -6478933/1649480, 4322879/618555, -18893117/3298960, 3783/2150],
   [0, 0, 0, 0, 0],
   [0, 12073105993/1050289128, -4230283954/131286141, 67778480393/2100578256, -1685099/152110],
   [0, 68501376/4521685, -212403168/4521685, 238152312/4521685, -471744/23575],
   [0, -10466915745/703750642, 177078743809/4222503852, -238162590567/5630005136, 53676491/3669190],
   [0, 28284245/4263714, -150799787/8527428, 565239223/34109712, -53/10],
   [0, -294260/101517, 893071/101517, -1004879/101517, 4],
   [0, -3432/959, 6864/959, -3432/959, 0],
   [0, -8, 32, -40, 16]]

/-- `Fi5N.C_extra3` (fine.py:339-339). -/
def Fi5N_C_extra3 : List ℚ :=
  [7/13]

/-- `Fi5N.A_extra3` (fine.py:340-342). -/
def Fi5N_A_extra3 : List (List ℚ) :=
  [[102928590567927/2000000000000000, 0, 25967842797493/250000000000000,
    -172319683951607/2500000000000000, 829881092428669/10000000000000000,
    -427358611434873/10000000000000000, 36620746417023/2000000000000000]]

/-- `Fi5N.Ap_extra3` (fine.py:343-345). -/
def Fi5N_Ap_extra3 : List (List ℚ) :=
  [[123829086381693/1250000000000000, 0, 421051250650231/1000000000000000,
    -81945671946107/2000000000000000, 11467578726757/100000000000000,
    -364803375246239/5000000000000000, 35209484921369/2000000000000000]]

/-- `Fi5N.P3` (fine.py:346-361). -/
def Fi5N_P3 : List (List ℚ) :=
  [[1/2, -14628935404609/12500000000000, 134773382152111/100000000000000,
    -621021772676567/1000000000000000, -597823106655287/10000000000000000,
    967378073680061/10000000000000000],
   [0, 0, 0, 0, 0, 0],
   [0, 265626120756873/100000000000000, -491705525506241/100000000000000,
    275486717403821/100000000000000, 78346565499011/200000000000000,
    -283121815360469/500000000000000],
   [0, 68277219844021/50000000000000, -218315497683829/50000000000000,
    56425040538741/20000000000000, 26665112289433/12500000000000, -36294693795497/20000000000000],
   [0, -32182284016249/62500000000000, 222831627015447/100000000000000,
    -10275974440311/10000000000000, -46473553905551/20000000000000, 79299980669827/50000000000000],
   [0, -551650449428157/100000000000000000, -199094070710617/500000000000000,
    -121670685963261/1250000000000000, 119047020644871/100000000000000,
    -172357252940647/250000000000000],
   [0, -307682083093/2500000000000, 484182482444333/1000000000000000,
    -214110447909797/1000000000000000, -133008804641151/250000000000000,
    96259004316817/250000000000000],
   [0, -862494097691/390625000000, 562132077604031/100000000000000,
    -361605298758719/100000000000000, -99989599073841/125000000000000, 1566615459729/1562500000000]]

/-- `Fi5N.Pp3` (fine.py:362-362). -/
def Fi5N_Pp3 : List (List ℚ) :=
  [[1, -43886806213827/12500000000000, 134773382152111/25000000000000,
    -621021772676567/200000000000000, -1793469319965861/5000000000000000,
    6771646515760427/10000000000000000],
   [0, 0, 0, 0, 0, 0],
   [0, 796878362270619/100000000000000, -491705525506241/25000000000000,
    275486717403821/20000000000000, 235039696497033/100000000000000,
    -1981852707523283/500000000000000],
   [0, 204831659532063/50000000000000, -218315497683829/12500000000000,
    56425040538741/4000000000000, 79995336868299/6250000000000, -254062856568479/20000000000000],
   [0, -96546852048747/62500000000000, 222831627015447/25000000000000,
    -10275974440311/2000000000000, -139420661716653/10000000000000, 555099864688789/50000000000000],
   [0, -1654951348284471/100000000000000000, -199094070710617/125000000000000,
    -121670685963261/250000000000000, 357141061934613/50000000000000,
    -1206500770584529/250000000000000],
   [0, -923046249279/2500000000000, 484182482444333/250000000000000,
    -214110447909797/200000000000000, -399026413923453/125000000000000,
    673813030217719/250000000000000],
   [0, -2587482293073/390625000000, 562132077604031/25000000000000,
    -361605298758719/20000000000000, -299968797221523/62500000000000, 10966308218103/1562500000000]]

/-- `Fi5N.Bi` (fine.py:290-293). -/
def Fi5N_Bi : List ℚ :=
  [20342293/227212000, 0, 159248338847/434024589600, 33225336/155712875,
   -27213980937/193879999600, 12057023/271069200, -19822/1129455, -3575/63408, 0]

/-- `Mu5Nmb.C_extra` (murua.py:174-174). -/
def Mu5Nmb_C_extra : ℚ := 1/2

/-- `Mu5Nmb.A_extra` (murua.py:175-180). -/
def Mu5Nmb_A_extra : List ℚ :=
  [6272277221/169802071360, 0, 45601101/646603760, 105407530693976029/5083508586660343092,
   261443/143169552, 4331771911506493999/3004050864175132445232, 264970711/603288000,
   -1050721229560409919849/2286323200843459728512, -91464477/52749914528, 1/64]

/-- `Mu5Nmb.Ap_extra` (murua.py:181-186). -/
def Mu5Nmb_Ap_extra : List ℚ :=
  [4914093243/84901035680, 0, 9036261/29391080, 1755813615360948893/16945028622201143640,
   7300631/238615920, 18144300078070688533/751012716043783111308, 86944303/80438400,
   -1292891362501846999547/1143161600421729864256, -640251339/131874786320, 1/32]

/-- `Mu5Nmb.P_better` (murua.py:187-208). -/
def Mu5Nmb_P_better : List (List ℚ) :=
  [[1/2, -4924143773/3183788838, 2398376727/1061262946, -1666124677/1061262946,
    3332249354/7959472095],
   [0, 0, 0, 0, 0],
   [0, 18714384/8082547, -39774150/8082547, 161466318/40412735, -12168/10505],
   [0, 7364030890/7677655029, -978508507380924517/423625715555028591,
    4540205538386050898/2118128577775142955, -6344587616/9104113535],
   [0, 4800445/8948097, -9572329/5965398, 26273923/14913495, -17576/27465],
   [0, 4826539070/11393392643, -237901641408829340815/187753179010945777827,
    87064975276817078628/62584393003648592609, -8327346232/16479128289],
   [0, -47281957/15082200, 79677919/3351600, -910165057/25137000, 100922/6615],
   [0, 67152452210/20471724521, -1777256640792585385045/71447600026358116516,
    2706892803882276765045/71447600026358116516, -13928550541/872515649],
   [0, 0, -91464477/1648434829, 823180293/8242174145, -365857908/8242174145],
   [0, -1/6, 1, -3/2, 2/3],
   [0, -8/3, 8, -8, 8/3]]

/-- `Mu5Nmb.Pp_better` (murua.py:209-209). -/
def Mu5Nmb_Pp_better : List (List ℚ) :=
  [[1, -4924143773/1061262946, 4796753454/530631473, -8330623385/1061262946, 6664498708/2653157365],
   [0, 0, 0, 0, 0],
   [0, 56143152/8082547, -159096600/8082547, 161466318/8082547, -73008/10505],
   [0, 7364030890/2559218343, -3914034029523698068/423625715555028591,
    4540205538386050898/423625715555028591, -38067525696/9104113535],
   [0, 4800445/2982699, -19144658/2982699, 26273923/2982699, -35152/9155],
   [0, 14479617210/11393392643, -951606565635317363260/187753179010945777827,
    435324876384085393140/62584393003648592609, -16654692464/5493042763],
   [0, -47281957/5027400, 79677919/837900, -910165057/5027400, 201844/2205],
   [0, 201457356630/20471724521, -1777256640792585385045/17861900006589529129,
    13534464019411383825225/71447600026358116516, -83571303246/872515649],
   [0, 0, -365857908/1648434829, 823180293/1648434829, -2195147448/8242174145],
   [0, -1/2, 4, -15/2, 4],
   [0, -8, 32, -40, 16]]

end Extensisq
