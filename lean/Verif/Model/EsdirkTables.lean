import Mathlib.Algebra.Field.Rat
import Mathlib.Algebra.Ring.Hom.Defs
import Mathlib.Data.Rat.Cast.CharZero
import Mathlib.Tactic.Ring
import Verif.Model.Esdirk

/-!
# Coefficient tables of the ESDIRK methods

Generated by `/verif/tools/gen_esdirk.py` from the class bodies in `/repo/extensisq` by exact evaluation of the
literals. Entries are numbers `a + b √2` with rational `a`, `b`. Decimal literals (Kv3I, parts of KC4I and
KC4Ia) and quotients of large integers are taken as the exact numbers; the rounding of every coefficient
to binary64 is not modelled.
-/

namespace Extensisq

/-- Numbers `a + b √2`. -/
@[ext] structure Q2 where
  a : ℚ
  b : ℚ
  deriving DecidableEq

namespace Q2
instance : Zero Q2 := ⟨⟨0, 0⟩⟩
instance : One Q2 := ⟨⟨1, 0⟩⟩
instance : Add Q2 := ⟨fun x y => ⟨x.a + y.a, x.b + y.b⟩⟩
instance : Neg Q2 := ⟨fun x => ⟨-x.a, -x.b⟩⟩
instance : Sub Q2 := ⟨fun x y => ⟨x.a - y.a, x.b - y.b⟩⟩
instance : Mul Q2 := ⟨fun x y => ⟨x.a * y.a + 2 * (x.b * y.b), x.a * y.b + x.b * y.a⟩⟩
instance : NatCast Q2 := ⟨fun n => ⟨n, 0⟩⟩
instance : IntCast Q2 := ⟨fun n => ⟨n, 0⟩⟩

theorem zero_def : (0 : Q2) = ⟨0, 0⟩ := rfl
theorem one_def : (1 : Q2) = ⟨1, 0⟩ := rfl
theorem add_def (x y : Q2) : x + y = ⟨x.a + y.a, x.b + y.b⟩ := rfl
theorem mul_def (x y : Q2) : x * y = ⟨x.a * y.a + 2 * (x.b * y.b), x.a * y.b + x.b * y.a⟩ := rfl
theorem neg_def (x : Q2) : -x = ⟨-x.a, -x.b⟩ := rfl
theorem sub_def (x y : Q2) : x - y = ⟨x.a - y.a, x.b - y.b⟩ := rfl
theorem natCast_def (n : ℕ) : (n : Q2) = ⟨n, 0⟩ := rfl
theorem intCast_def (n : ℤ) : (n : Q2) = ⟨n, 0⟩ := rfl

instance : CommRing Q2 where
  add_assoc x y z := by simp only [add_def]; ext <;> simp only <;> ring
  zero_add x := by simp only [add_def, zero_def]; ext <;> simp only <;> ring
  add_zero x := by simp only [add_def, zero_def]; ext <;> simp only <;> ring
  add_comm x y := by simp only [add_def]; ext <;> simp only <;> ring
  left_distrib x y z := by simp only [add_def, mul_def]; ext <;> simp only <;> ring
  right_distrib x y z := by simp only [add_def, mul_def]; ext <;> simp only <;> ring
  zero_mul x := by simp only [mul_def, zero_def]; ext <;> simp only <;> ring
  mul_zero x := by simp only [mul_def, zero_def]; ext <;> simp only <;> ring
  mul_assoc x y z := by simp only [mul_def]; ext <;> simp only <;> ring
  one_mul x := by simp only [mul_def, one_def]; ext <;> simp only <;> ring
  mul_one x := by simp only [mul_def, one_def]; ext <;> simp only <;> ring
  mul_comm x y := by simp only [mul_def]; ext <;> simp only <;> ring
  neg_add_cancel x := by simp only [add_def, neg_def, zero_def]; ext <;> simp only <;> ring
  sub_eq_add_neg x y := by simp only [add_def, neg_def, sub_def]; ext <;> simp only <;> ring
  nsmul := nsmulRec
  zsmul := zsmulRec
  natCast_zero := by simp only [natCast_def, zero_def]; ext <;> simp
  natCast_succ n := by simp only [natCast_def, one_def, add_def]; ext <;> simp
  intCast_ofNat n := by simp only [natCast_def, intCast_def]; ext <;> simp
  intCast_negSucc n := by simp only [natCast_def, intCast_def, neg_def]; ext <;> simp

/-- The value in a field, where `r` is a square root of two. -/
def val {K : Type*} [DivisionRing K] (r : K) (x : Q2) : K := (x.a : K) + (x.b : K) * r

/-- Evaluation is a ring homomorphism. -/
def hom {K : Type*} [Field K] [CharZero K] (r : K) (hr : r * r = 2) : Q2 →+* K where
  toFun := val r
  map_one' := by simp [val, one_def]
  map_zero' := by simp [val, zero_def]
  map_add' x y := by simp only [val, add_def]; push_cast; ring
  map_mul' x y := by
    simp only [val, mul_def]; push_cast
    linear_combination ((x.b : K) * y.b) * (-hr)
end Q2

/-- Class attributes of an ESDIRK class; `P0`, `P1` are the coefficients of the two interpolants (empty: none). -/
structure ESTable where
  n : ℕ
  order : ℕ
  orderSec : ℕ
  d : Q2
  A : List (List Q2)
  Az : List (List Q2)
  B : List Q2
  C : List Q2
  E : List Q2
  P0 : List (List Q2)
  P1 : List (List Q2)
  kappa : ℚ
  filter : Bool

/-- The coefficients used by the driver model, over any field with a square root `r` of two. -/
def ESTable.tab (R : ESTable) (K : Type*) [DivisionRing K] (r : K) : ETab K where
  n := R.n
  d := R.d.val r
  A i j := ((R.A.getD i []).getD j 0).val r
  Az i j := ((R.Az.getD i []).getD j 0).val r
  B i := (R.B.getD i 0).val r
  C i := (R.C.getD i 0).val r
  E i := (R.E.getD i 0).val r
  kappa := (R.kappa : K)
  filter := R.filter

/-- `TRBDF2` (hosea.py:184-198, hosea.py:10-13). -/
def TRBDF2 : ESTable where
  n := 3
  order := 2
  orderSec := 3
  d := ⟨1, -1/2⟩
  A := [[⟨0, 0⟩, ⟨0, 0⟩, ⟨0, 0⟩],
        [⟨1, -1/2⟩, ⟨1, -1/2⟩, ⟨0, 0⟩],
        [⟨0, 1/4⟩, ⟨0, 1/4⟩, ⟨1, -1/2⟩]]
  Az := [[⟨0, 0⟩, ⟨0, 0⟩, ⟨0, 0⟩],
        [⟨1, 0⟩, ⟨0, 0⟩, ⟨0, 0⟩],
        [⟨0, -1/2⟩, ⟨1, 1/2⟩, ⟨0, 0⟩]]
  B := [⟨0, 1/4⟩, ⟨0, 1/4⟩, ⟨1, -1/2⟩]
  C := [⟨0, 0⟩, ⟨2, -1⟩, ⟨1, 0⟩]
  E := [⟨1/3, -1/3⟩, ⟨1/3, 0⟩, ⟨-2/3, 1/3⟩]
  P0 := []
  P1 := []
  kappa := 1/2
  filter := true

/-- `TRX2` (hosea.py:329-342, hosea.py:10-13). -/
def TRX2 : ESTable where
  n := 3
  order := 2
  orderSec := 3
  d := ⟨1/4, 0⟩
  A := [[⟨0, 0⟩, ⟨0, 0⟩, ⟨0, 0⟩],
        [⟨1/4, 0⟩, ⟨1/4, 0⟩, ⟨0, 0⟩],
        [⟨1/4, 0⟩, ⟨1/2, 0⟩, ⟨1/4, 0⟩]]
  Az := [[⟨0, 0⟩, ⟨0, 0⟩, ⟨0, 0⟩],
        [⟨1, 0⟩, ⟨0, 0⟩, ⟨0, 0⟩],
        [⟨-1, 0⟩, ⟨2, 0⟩, ⟨0, 0⟩]]
  B := [⟨1/4, 0⟩, ⟨1/2, 0⟩, ⟨1/4, 0⟩]
  C := [⟨0, 0⟩, ⟨1/2, 0⟩, ⟨1, 0⟩]
  E := [⟨-1/12, 0⟩, ⟨1/6, 0⟩, ⟨-1/12, 0⟩]
  P0 := []
  P1 := []
  kappa := 1
  filter := true

/-- `KC3I` (kennedy.py:164-230, kennedy.py:9). -/
def KC3I : ESTable where
  n := 5
  order := 3
  orderSec := 2
  d := ⟨9/40, 0⟩
  A := [[⟨0, 0⟩, ⟨0, 0⟩, ⟨0, 0⟩, ⟨0, 0⟩, ⟨0, 0⟩],
        [⟨9/40, 0⟩, ⟨9/40, 0⟩, ⟨0, 0⟩, ⟨0, 0⟩, ⟨0, 0⟩],
        [⟨9/80, 9/80⟩, ⟨9/80, 9/80⟩, ⟨9/40, 0⟩, ⟨0, 0⟩, ⟨0, 0⟩],
        [⟨1/10, 7/80⟩, ⟨1/10, 7/80⟩, ⟨7/40, -7/40⟩, ⟨9/40, 0⟩, ⟨0, 0⟩],
        [⟨-1181/2835, 1187/2835⟩, ⟨-1181/2835, 1187/2835⟩, ⟨2374/2835, -2374/2835⟩, ⟨5827/7560, 0⟩, ⟨9/40, 0⟩]]
  Az := [[⟨0, 0⟩, ⟨0, 0⟩, ⟨0, 0⟩, ⟨0, 0⟩, ⟨0, 0⟩],
        [⟨1, 0⟩, ⟨0, 0⟩, ⟨0, 0⟩, ⟨0, 0⟩, ⟨0, 0⟩],
        [⟨0, -1/2⟩, ⟨1, 1/2⟩, ⟨0, 0⟩, ⟨0, 0⟩, ⟨0, 0⟩],
        [⟨-5/3, 4/3⟩, ⟨0, 0⟩, ⟨8/3, -4/3⟩, ⟨0, 0⟩, ⟨0, 0⟩],
        [⟨3367/27, -2380/27⟩, ⟨1420/27, -340/9⟩, ⟨-4760/27, 3400/27⟩, ⟨0, 0⟩, ⟨0, 0⟩]]
  B := [⟨-1181/2835, 1187/2835⟩, ⟨-1181/2835, 1187/2835⟩, ⟨2374/2835, -2374/2835⟩, ⟨5827/7560, 0⟩, ⟨9/40, 0⟩]
  C := [⟨0, 0⟩, ⟨9/20, 0⟩, ⟨9/20, 9/40⟩, ⟨3/5, 0⟩, ⟨1, 0⟩]
  E := [⟨42102658839853076/70062535553225985, -1187/2835⟩, ⟨42102658839853076/70062535553225985, -1187/2835⟩, ⟨-80800030129627159/72427553119698210, 2374/2835⟩, ⟨-81392/1101303, 0⟩, ⟨-72/5827, 0⟩]
  P0 := [[⟨9035708/1835505, -5275768/1835505⟩, ⟨-81688633/5506515, 53056007/5506515⟩, ⟨5384/567, -3596/567⟩],
         [⟨9035708/1835505, -5275768/1835505⟩, ⟨-81688633/5506515, 53056007/5506515⟩, ⟨5384/567, -3596/567⟩],
         [⟨-2567144/367101, 8593664/1835505⟩, ⟨124385486/5506515, -90449038/5506515⟩, ⟨-8368/567, 6184/567⟩],
         [⟨-345291/203945, 23/30⟩, ⟨2185191/326312, -92/45⟩, ⟨-800/189, 23/18⟩],
         [⟨-4644/29135, 3/10⟩, ⟨17919/46616, -4/5⟩, ⟨0, 1/2⟩]]
  P1 := [[⟨1, 0⟩, ⟨-529769/87405, 265868/87405⟩, ⟨123167299/16519545, -72831508/16519545⟩, ⟨-3096146/1101303, 1966607/1101303⟩],
         [⟨0, 0⟩, ⟨-209284/87405, 265868/87405⟩, ⟨51582604/16519545, -72831508/16519545⟩, ⟨-1260641/1101303, 1966607/1101303⟩],
         [⟨0, 0⟩, ⟨531736/87405, -531736/87405⟩, ⟨-145663016/16519545, 145663016/16519545⟩, ⟨3933214/1101303, -3933214/1101303⟩],
         [⟨0, 0⟩, ⟨694367/349620, 0⟩, ⟨-4895596/5506515, 0⟩, ⟨-958103/2936808, 0⟩],
         [⟨0, 0⟩, ⟨44967/116540, 0⟩, ⟨-25397/29135, 0⟩, ⟨33137/46616, 0⟩]]
  kappa := 1
  filter := false

/-- `KC4I` (kennedy.py:370-430, kennedy.py:9). -/
def KC4I : ESTable where
  n := 6
  order := 4
  orderSec := 3
  d := ⟨1/4, 0⟩
  A := [[⟨0, 0⟩, ⟨0, 0⟩, ⟨0, 0⟩, ⟨0, 0⟩, ⟨0, 0⟩, ⟨0, 0⟩],
        [⟨1/4, 0⟩, ⟨1/4, 0⟩, ⟨0, 0⟩, ⟨0, 0⟩, ⟨0, 0⟩, ⟨0, 0⟩],
        [⟨1/8, -1/8⟩, ⟨1/8, -1/8⟩, ⟨1/4, 0⟩, ⟨0, 0⟩, ⟨0, 0⟩, ⟨0, 0⟩],
        [⟨5/64, -7/64⟩, ⟨5/64, -7/64⟩, ⟨7/32, 7/32⟩, ⟨1/4, 0⟩, ⟨0, 0⟩, ⟨0, 0⟩],
        [⟨-3449/31250, -54539/125000⟩, ⟨-3449/31250, -54539/125000⟩, ⟨101321/87500, 132109/437500⟩, ⟨-16102/109375, 62416/109375⟩, ⟨1/4, 0⟩, ⟨0, 0⟩],
        [⟨1181/13782, -329/4594⟩, ⟨1181/13782, -329/4594⟩, ⟨-12549/273343, 83801/273343⟩, ⟨366752/571953, -18800/190651⟩, ⟨-1515625/90749876, -1468750/22687469⟩, ⟨1/4, 0⟩]]
  Az := [[⟨0, 0⟩, ⟨0, 0⟩, ⟨0, 0⟩, ⟨0, 0⟩, ⟨0, 0⟩, ⟨0, 0⟩],
        [⟨1, 0⟩, ⟨0, 0⟩, ⟨0, 0⟩, ⟨0, 0⟩, ⟨0, 0⟩, ⟨0, 0⟩],
        [⟨0, 1/2⟩, ⟨1, -1/2⟩, ⟨0, 0⟩, ⟨0, 0⟩, ⟨0, 0⟩, ⟨0, 0⟩],
        [⟨0, 0⟩, ⟨1, 0⟩, ⟨0, 0⟩, ⟨0, 0⟩, ⟨0, 0⟩, ⟨0, 0⟩],
        [⟨-33366/30625, 68973/61250⟩, ⟨-33366/30625, 68973/61250⟩, ⟨-926197/214375, 403961/214375⟩, ⟨1607696/214375, -886772/214375⟩, ⟨0, 0⟩, ⟨0, 0⟩],
        [⟨0, 0⟩, ⟨0, 0⟩, ⟨0, 0⟩, ⟨0, 0⟩, ⟨1, 0⟩, ⟨0, 0⟩]]
  B := [⟨1181/13782, -329/4594⟩, ⟨1181/13782, -329/4594⟩, ⟨-12549/273343, 83801/273343⟩, ⟨366752/571953, -18800/190651⟩, ⟨-1515625/90749876, -1468750/22687469⟩, ⟨1/4, 0⟩]
  C := [⟨0, 0⟩, ⟨1/2, 0⟩, ⟨1/2, -1/4⟩, ⟨5/8, 0⟩, ⟨26/25, 0⟩, ⟨1, 0⟩]
  E := [⟨-6256486607243867/34337656250731452, 329/4594⟩, ⟨-6256486607243867/34337656250731452, 329/4594⟩, ⟨1995024141630841714/3507862406892715137, -83801/273343⟩, ⟨-465741487385200490/3859960574322978033, 18800/190651⟩, ⟨-36113502329151756695/548362981939124473492, 1468750/22687469⟩, ⟨-636995338929/35780070120548, 0⟩]
  P0 := [[⟨11963910384665/12483345430363, 0⟩, ⟨-69996760330788/18526599551455, 0⟩, ⟨32473635429419/7030701510665, 0⟩, ⟨-14668528638623/8083464301755, 0⟩],
         [⟨11963910384665/12483345430363, 0⟩, ⟨-69996760330788/18526599551455, 0⟩, ⟨32473635429419/7030701510665, 0⟩, ⟨-14668528638623/8083464301755, 0⟩],
         [⟨-28603264624/1970169629981, 0⟩, ⟨102610171905103/26266659717953, 0⟩, ⟨-38866317253841/6249835826165, 0⟩, ⟨21103455885091/7774428730952, 0⟩],
         [⟨-3524425447183/2683177070205, 0⟩, ⟨74957623907620/12279805097313, 0⟩, ⟨-26705717223886/4265677133337, 0⟩, ⟨30155591475533/15293695940061, 0⟩],
         [⟨-17173522440186/10195024317061, 0⟩, ⟨113853199235633/9983266320290, 0⟩, ⟨-121105382143155/6658412667527, 0⟩, ⟨119853375102088/14336240079991, 0⟩],
         [⟨27308879169709/13030500014233, 0⟩, ⟨-84229392543950/6077740599399, 0⟩, ⟨1102028547503824/51424476870755, 0⟩, ⟨-63602213973224/6753880425717, 0⟩]]
  P1 := [[⟨1, 0⟩, ⟨-4045351040436539/1000000000000000, 0⟩, ⟨5028351540730211/1000000000000000, 0⟩, ⟨-1998588135329389/1000000000000000, 0⟩],
         [⟨0, 0⟩, ⟨237553630334257/100000000000000, 0⟩, ⟨-4813423146828023/1000000000000000, 0⟩, ⟨2422299208449723/1000000000000000, 0⟩],
         [⟨0, 0⟩, ⟨3813260102423869/1000000000000000, 0⟩, ⟨-243035580847797/40000000000000, 0⟩, ⟨2650287089684259/1000000000000000, 0⟩],
         [⟨0, 0⟩, ⟨-2329870780844837/1000000000000000, 0⟩, ⟨3333416019989167/500000000000000, 0⟩, ⟨-3835188639561323/1000000000000000, 0⟩],
         [⟨0, 0⟩, ⟨2942082256985599/5000000000000000, 0⟩, ⟨-1609852984449971/1000000000000000, 0⟩, ⟨9131815126389187/10000000000000000, 0⟩],
         [⟨0, 0⟩, ⟨-160796414352877/400000000000000, 0⟩, ⟨160796414352877/200000000000000, 0⟩, ⟨-60796414352877/400000000000000, 0⟩]]
  kappa := 1/2
  filter := false

/-- `KC4Ia` (kennedy.py:573-645, kennedy.py:9). -/
def KC4Ia : ESTable where
  n := 7
  order := 4
  orderSec := 3
  d := ⟨1/8, 0⟩
  A := [[⟨0, 0⟩, ⟨0, 0⟩, ⟨0, 0⟩, ⟨0, 0⟩, ⟨0, 0⟩, ⟨0, 0⟩, ⟨0, 0⟩],
        [⟨1/8, 0⟩, ⟨1/8, 0⟩, ⟨0, 0⟩, ⟨0, 0⟩, ⟨0, 0⟩, ⟨0, 0⟩, ⟨0, 0⟩],
        [⟨-39188347878/1513744654945, 0⟩, ⟨-39188347878/1513744654945, 0⟩, ⟨1/8, 0⟩, ⟨0, 0⟩, ⟨0, 0⟩, ⟨0, 0⟩, ⟨0, 0⟩],
        [⟨1748874742213/5168247530883, 0⟩, ⟨1748874742213/5168247530883, 0⟩, ⟨-1748874742213/5795261096931, 0⟩, ⟨1/8, 0⟩, ⟨0, 0⟩, ⟨0, 0⟩, ⟨0, 0⟩],
        [⟨-6429340993097/17896796106705, 0⟩, ⟨-6429340993097/17896796106705, 0⟩, ⟨9711656375562/10370074603625, 0⟩, ⟨1137589605079/3216875020685, 0⟩, ⟨1/8, 0⟩, ⟨0, 0⟩, ⟨0, 0⟩],
        [⟨405169606099/1734380148729, 0⟩, ⟨405169606099/1734380148729, 0⟩, ⟨-264468840649/6105657584947, 0⟩, ⟨118647369377/6233854714037, 0⟩, ⟨683008737625/4934655825458, 0⟩, ⟨1/8, 0⟩, ⟨0, 0⟩],
        [⟨-5649241495537/14093099002237, 0⟩, ⟨-5649241495537/14093099002237, 0⟩, ⟨5718691255176/6089204655961, 0⟩, ⟨2199600963556/4241893152925, 0⟩, ⟨8860614275765/11425531467341, 0⟩, ⟨-3696041814078/6641566663007, 0⟩, ⟨1/8, 0⟩]]
  Az := [[⟨0, 0⟩, ⟨0, 0⟩, ⟨0, 0⟩, ⟨0, 0⟩, ⟨0, 0⟩, ⟨0, 0⟩, ⟨0, 0⟩],
        [⟨1, 0⟩, ⟨0, 0⟩, ⟨0, 0⟩, ⟨0, 0⟩, ⟨0, 0⟩, ⟨0, 0⟩, ⟨0, 0⟩],
        [⟨282842712474619/400000000000000, 0⟩, ⟨117157287525381/400000000000000, 0⟩, ⟨0, 0⟩, ⟨0, 0⟩, ⟨0, 0⟩, ⟨0, 0⟩, ⟨0, 0⟩],
        [⟨-1, 0⟩, ⟨2, 0⟩, ⟨0, 0⟩, ⟨0, 0⟩, ⟨0, 0⟩, ⟨0, 0⟩, ⟨0, 0⟩],
        [⟨-344712536068413/100000000000000, 0⟩, ⟨-344712536068413/100000000000000, 0⟩, ⟨5597060516320929/1000000000000000, 0⟩, ⟨2297190205047331/1000000000000000, 0⟩, ⟨0, 0⟩, ⟨0, 0⟩, ⟨0, 0⟩],
        [⟨0, 0⟩, ⟨0, 0⟩, ⟨0, 0⟩, ⟨0, 0⟩, ⟨1, 0⟩, ⟨0, 0⟩, ⟨0, 0⟩],
        [⟨-1669640264560983/1000000000000000, 0⟩, ⟨-1669640264560983/1000000000000000, 0⟩, ⟨2655940863056583/1000000000000000, 0⟩, ⟨-1224584413467299/10000000000000000, 0⟩, ⟨-8905466663459783/10000000000000000, 0⟩, ⟨674086193439523/250000000000000, 0⟩, ⟨0, 0⟩]]
  B := [⟨-5649241495537/14093099002237, 0⟩, ⟨-5649241495537/14093099002237, 0⟩, ⟨5718691255176/6089204655961, 0⟩, ⟨2199600963556/4241893152925, 0⟩, ⟨8860614275765/11425531467341, 0⟩, ⟨-3696041814078/6641566663007, 0⟩, ⟨1/8, 0⟩]
  C := [⟨0, 0⟩, ⟨1/4, 0⟩, ⟨1200237871921/16391473681546, 0⟩, ⟨1/2, 0⟩, ⟨395/567, 0⟩, ⟨89/126, 0⟩, ⟨1, 0⟩]
  E := [⟨14021722784906200638478406/88328749927055336625976631, 0⟩, ⟨14021722784906200638478406/88328749927055336625976631, 0⟩, ⟨-3070711560882459617262660/10949513763298336699947229, 0⟩, ⟨-815814787991699828720304/45161095659596754702440075, 0⟩, ⟨-1195088015805686578873824/81172597762810000486866617, 0⟩, ⟨-740420675674591594133033/49448254888661947436093061, 0⟩, ⟨3/280, 0⟩]
  P0 := [[⟨1751737353544831/1000000000000000, 0⟩, ⟨-1167529655238061/100000000000000, 0⟩, ⟨966645078791787/50000000000000, 0⟩, ⟨-9810193992009567/1000000000000000, 0⟩],
         [⟨1751737353544831/1000000000000000, 0⟩, ⟨-1167529655238061/100000000000000, 0⟩, ⟨966645078791787/50000000000000, 0⟩, ⟨-9810193992009567/1000000000000000, 0⟩],
         [⟨-33106698971287/20000000000000, 0⟩, ⟨1731058741533003/100000000000000, 0⟩, ⟨-3087602826958563/100000000000000, 0⟩, ⟨807996410867193/50000000000000, 0⟩],
         [⟨-396425536378789/250000000000000, 0⟩, ⟨1232790098775139/100000000000000, 0⟩, ⟨-1838973592743151/100000000000000, 0⟩, ⟨4083039684545107/500000000000000, 0⟩],
         [⟨1480670047540331/1000000000000000, 0⟩, ⟨-268644279562611/20000000000000, 0⟩, ⟨2548988276667239/100000000000000, 0⟩, ⟨-1276282880391497/100000000000000, 0⟩],
         [⟨-3196418023767401/5000000000000000, 0⟩, ⟨1531959603910951/250000000000000, 0⟩, ⟨-255739612799813/20000000000000, 0⟩, ⟨1348384865706701/200000000000000, 0⟩],
         [⟨-519120278985037/5000000000000000, 0⟩, ⟨1016480264166559/1000000000000000, 0⟩, ⟨-262867635167009/125000000000000, 0⟩, ⟨1315284872966521/1000000000000000, 0⟩]]
  P1 := [[⟨1, 0⟩, ⟨-1309267871829547/5000000000000000, 0⟩, ⟨-2039849655653307/500000000000000, 0⟩, ⟨588140254132583/200000000000000, 0⟩],
         [⟨0, 0⟩, ⟨7936037051221989/1000000000000000, 0⟩, ⟨-1747548056248241/100000000000000, 0⟩, ⟨9138591896250813/1000000000000000, 0⟩],
         [⟨0, 0⟩, ⟨-5459341005691339/1000000000000000, 0⟩, ⟨1467529166947831/100000000000000, 0⟩, ⟨-1655359649852613/200000000000000, 0⟩],
         [⟨0, 0⟩, ⟨-85808402012737/50000000000000, 0⟩, ⟨1376626304022301/250000000000000, 0⟩, ⟨-3271794891939533/1000000000000000, 0⟩],
         [⟨0, 0⟩, ⟨-339436729895137/250000000000000, 0⟩, ⟨1163506793565981/200000000000000, 0⟩, ⟨-736855403216431/200000000000000, 0⟩],
         [⟨0, 0⟩, ⟨949247677414993/2000000000000000, 0⟩, ⟨-635050735936459/200000000000000, 0⟩, ⟨2144128340407973/1000000000000000, 0⟩],
         [⟨0, 0⟩, ⟨768897299926103/2000000000000000, 0⟩, ⟨-1268897299926103/1000000000000000, 0⟩, ⟨1009448649963051/1000000000000000, 0⟩]]
  kappa := 1/5
  filter := false

/-- `Kv3I` (kvaerno.py:143-177). -/
def Kv3I : ESTable where
  n := 4
  order := 3
  orderSec := 2
  d := ⟨435866521508459/1000000000000000, 0⟩
  A := [[⟨0, 0⟩, ⟨0, 0⟩, ⟨0, 0⟩, ⟨0, 0⟩],
        [⟨435866521508459/1000000000000000, 0⟩, ⟨435866521508459/1000000000000000, 0⟩, ⟨0, 0⟩, ⟨0, 0⟩],
        [⟨213820157690804547939191445319/435866521508459000000000000000, 0⟩, ⟨64133478491541/871733043016918, 0⟩, ⟨435866521508459/1000000000000000, 0⟩, ⟨0, 0⟩],
        [⟨807599564525377/2615199129050754, 0⟩, ⟨125000000000000000000000000000/83860908547036643817574335957, 0⟩, ⟨-237660690809725143817574335957/192400435474623000000000000000, 0⟩, ⟨435866521508459/1000000000000000, 0⟩]]
  Az := [[⟨0, 0⟩, ⟨0, 0⟩, ⟨0, 0⟩, ⟨0, 0⟩],
        [⟨1, 0⟩, ⟨0, 0⟩, ⟨0, 0⟩, ⟨0, 0⟩],
        [⟨-64133478491541/435866521508459, 0⟩, ⟨500000000000000/435866521508459, 0⟩, ⟨0, 0⟩, ⟨0, 0⟩],
        [⟨0, 0⟩, ⟨0, 0⟩, ⟨1, 0⟩, ⟨0, 0⟩]]
  B := [⟨807599564525377/2615199129050754, 0⟩, ⟨125000000000000000000000000000/83860908547036643817574335957, 0⟩, ⟨-237660690809725143817574335957/192400435474623000000000000000, 0⟩, ⟨435866521508459/1000000000000000, 0⟩]
  C := [⟨0, 0⟩, ⟨435866521508459/500000000000000, 0⟩, ⟨1, 0⟩, ⟨1, 0⟩]
  E := [⟨237660690809725143817574335957/1307599564525377000000000000000, 0⟩, ⟨-237660690809725143817574335957/167721817094073287635148671914, 0⟩, ⟨160760799678380893817574335957/96200217737311500000000000000, 0⟩, ⟨-435866521508459/1000000000000000, 0⟩]
  P0 := [[⟨1, 0⟩, ⟨-838726632867/781250000000, 0⟩, ⟨382380060046507/1000000000000000, 0⟩],
         [⟨0, 0⟩, ⟨223584508263267/50000000000000, 0⟩, ⟨-74528169421089/25000000000000, 0⟩],
         [⟨10452602553351/10000000000000, 0⟩, ⟨-144906003759779/25000000000000, 0⟩, ⟨351574001514907/100000000000000, 0⟩],
         [⟨-10452602553351/10000000000000, 0⟩, ⟨119906003759779/50000000000000, 0⟩, ⟨-45849664917601/50000000000000, 0⟩]]
  P1 := [[⟨1, 0⟩, ⟨-838726632867/781250000000, 0⟩, ⟨382380060046507/1000000000000000, 0⟩, ⟨0, 0⟩],
         [⟨0, 0⟩, ⟨223584508263267/50000000000000, 0⟩, ⟨-74528169421089/25000000000000, 0⟩, ⟨0, 0⟩],
         [⟨0, 0⟩, ⟨63172286471807/250000000000000, 0⟩, ⟨-108926756228049/20000000000000, 0⟩, ⟨49480109820103/12500000000000, 0⟩],
         [⟨0, 0⟩, ⟨-365080922108287/100000000000000, 0⟩, ⟨804508452819957/100000000000000, 0⟩, ⟨-15833635142433/4000000000000, 0⟩]]
  kappa := 1/15
  filter := false

end Extensisq
