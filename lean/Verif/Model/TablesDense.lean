import Mathlib.Data.Rat.Cast.Order

/-!
# Tables for dense output with extra stages

Generated by `/verif/tools/gen_dense.py` from `/repo/extensisq/bogacki.py` by exact evaluation of the literals.
-/

namespace Extensisq

/-- `BS5.C_extra` (bogacki.py:143-143). -/
def BS5_C_extra : List ℚ := [1/2, 5/6, 1/9]

/-- Rows of `BS5.A_extra` (the array in the source is transposed; bogacki.py:146-158). -/
def BS5_A_extra : List (List ℚ) :=
  [[455/6144, 0, 10256301/35409920, 2307361/17971200, -387/102400, 73/5130, -7267/215040, 1/32,
    0, 0],
   [-837888343715/13176988637184, 30409415/52955362, -48321525963/759168069632,
    8530738453321/197654829557760, 1361640523001/1626788720640, -13143060689/38604458898,
    18700221969/379584034816, -5831595/847285792, -5183640/26477681, 0],
   [98719073263/1551965184000, 1307/123552, 4632066559387/70181753241600,
    7828594302389/382182512025600, 40763687/11070259200, 34872732407/224610586200,
    -2561897/30105600, 1/10, -1/10, -1403317093/11371610250]]

/-- `BS5.Plow` (bogacki.py:187-196). -/
def BS5_Plow : List (List ℚ) :=
  [[1, -155/36, 16441/2016, -56689/8064, 757/336],
   [0, 0, 0, 0, 0],
   [0, 6561/988, -14727987/774592, 60538347/3098368, -13321017/1936480],
   [0, 2401/702, -603337/56160, 2740913/224640, -24353/5200],
   [0, 0, -387/2240, 3483/8960, -1161/5600],
   [0, 1408/513, -45536/3591, 67960/3591, -17216/1995],
   [0, 0, -7267/4704, 21801/6272, -7267/3920],
   [0, -1/2, 4, -15/2, 4],
   [0, -8, 32, -40, 16]]

/-- `BS5.Pbest` (bogacki.py:162-183). -/
def BS5_Pbest : List (List ℚ) :=
  [[0, -11513270273/3502699200, -87098480009/5254048800, -2048058893/59875200,
    -1620741229/50038560, -12134338393/1050809760],
   [0, 0, 0, 0, 0, 0],
   [0, -29327744613/2436866432, -69509738227/1218433216, -39991188681/374902528,
    -539868024987/6092166080, -33197340367/1218433216],
   [0, -2382590741699/331755652800, -16209923456237/497633479200, -333945812879/5671036800,
    -7896875450471/165877826400, -284800997201/19905339168],
   [0, -36591193/86486400, -32406787/18532800, -633779/211200, -103626067/43243200, -540919/741312],
   [0, -611586736/89131185, -3357024032/1871754885, 183022264/5332635, 30405842464/623918295,
    7157998304/374350977],
   [0, -65403/15680, -385151/15680, -1620541/31360, -719433/15680, -138073/9408],
   [1, 149/16, 2501/64, 4715/64, 3991/64, 1245/64],
   [0, 16, 199/3, 103, 71, 55/3],
   [0, -423642896/126351225, -11411880511/379053675, -26477681/359975, -1774004627/25270245,
    -1774004627/75810735],
   [0, 12, 59, 117, 105, 35]]

end Extensisq
