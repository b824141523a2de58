import Verif.Model.Methods
import Mathlib.Data.Fin.VecNotation

/-!
# Coefficients of the registered solver classes

Generated from the Python sources. `q a b` is the quotient of two integer literals. Decimal literals
(DOP853) are exact decimal fractions.
-/

set_option autoImplicit false

namespace Nbkode

variable {α : Type}
variable [Add α] [Sub α] [Mul α] [Div α] [Neg α] [Zero α] [One α] [NatCast α]

/-- The quotient of two integer literals, as in `3 / 40` or `np.array([3, -1]) / 2`. -/
def q (a b : Nat) : α := (a : α) / (b : α)

/-! ## `nbkode/multistep/adams_bashforth.py` -/

/-- `nbkode/multistep/adams_bashforth.py:10-14` and `nbkode/multistep/adams_moulton.py:27-31`:
`A = zeros_like(B); A[-1] = -1`. -/
def adamsA (p : Nat) : Fin (p + 1) → α := fun i => if i.val = p then -1 else 0

/-- `nbkode/multistep/adams_bashforth.py:17-20` (`Bn = 0`, `multistep/core.py:88`). -/
def AdamsBashforth1 : MultistepCoef α 0 where
  A := adamsA 0
  B := ![1]
  Bn := 0

/-- `nbkode/multistep/adams_bashforth.py:23-31` (`Bn = 0`, `multistep/core.py:88`). -/
def AdamsBashforth2 : MultistepCoef α 1 where
  A := adamsA 1
  B := ![q 3 2, -(q 1 2)]
  Bn := 0

/-- `nbkode/multistep/adams_bashforth.py:34-44` (`Bn = 0`, `multistep/core.py:88`). -/
def AdamsBashforth3 : MultistepCoef α 2 where
  A := adamsA 2
  B := ![q 23 12, -(q 16 12), q 5 12]
  Bn := 0

/-- `nbkode/multistep/adams_bashforth.py:47-57` (`Bn = 0`, `multistep/core.py:88`). -/
def AdamsBashforth4 : MultistepCoef α 3 where
  A := adamsA 3
  B := ![q 55 24, -(q 59 24), q 37 24, -(q 9 24)]
  Bn := 0

/-- `nbkode/multistep/adams_bashforth.py:60-61` (`Bn = 0`, `multistep/core.py:88`). -/
def AdamsBashforth5 : MultistepCoef α 4 where
  A := adamsA 4
  B := ![q 1901 720, -(q 2774 720), q 2616 720, -(q 1274 720), q 251 720]
  Bn := 0

/-! ## `nbkode/multistep/adams_moulton.py` -/

/-- `nbkode/multistep/adams_moulton.py:34-36`. -/
def AdamsMoulton1 : MultistepCoef α 0 where
  A := adamsA 0
  B := ![0]
  Bn := 1

/-- `nbkode/multistep/adams_moulton.py:39-41`. -/
def AdamsMoulton2 : MultistepCoef α 0 where
  A := adamsA 0
  B := ![q 1 2]
  Bn := q 1 2

/-- `nbkode/multistep/adams_moulton.py:44-46`. -/
def AdamsMoulton3 : MultistepCoef α 1 where
  A := adamsA 1
  B := ![-(q 1 12), q 2 3]
  Bn := q 5 12

/-- `nbkode/multistep/adams_moulton.py:49-51`. -/
def AdamsMoulton4 : MultistepCoef α 2 where
  A := adamsA 2
  B := ![q 19 24, -(q 5 24), q 1 24]
  Bn := q 9 24

/-- `nbkode/multistep/adams_moulton.py:54-56`. -/
def AdamsMoulton5 : MultistepCoef α 3 where
  A := adamsA 3
  B := ![q 646 720, -(q 264 720), q 106 720, -(q 19 720)]
  Bn := q 251 720

/-! ## `nbkode/multistep/bdf.py` -/

/-- `nbkode/multistep/bdf.py:15-17` (`B = zeros_like(A)`, `:10-12`). -/
def BDF1 : MultistepCoef α 0 where
  A := ![-(1)]
  B := fun _ => 0
  Bn := 1

/-- `nbkode/multistep/bdf.py:20-22` (`B = zeros_like(A)`, `:10-12`). -/
def BDF2 : MultistepCoef α 1 where
  A := ![q 1 3, -(q 4 3)]
  B := fun _ => 0
  Bn := q 2 3

/-- `nbkode/multistep/bdf.py:25-27` (`B = zeros_like(A)`, `:10-12`). -/
def BDF3 : MultistepCoef α 2 where
  A := ![-(q 2 11), q 9 11, -(q 18 11)]
  B := fun _ => 0
  Bn := q 6 11

/-- `nbkode/multistep/bdf.py:30-32` (`B = zeros_like(A)`, `:10-12`). -/
def BDF4 : MultistepCoef α 3 where
  A := ![q 3 25, -(q 16 25), q 36 25, -(q 48 25)]
  B := fun _ => 0
  Bn := q 12 25

/-- `nbkode/multistep/bdf.py:35-37` (`B = zeros_like(A)`, `:10-12`). -/
def BDF5 : MultistepCoef α 4 where
  A := ![-(q 12 137), q 75 137, -(q 200 137), q 300 137, -(q 300 137)]
  B := fun _ => 0
  Bn := q 60 137

/-- `nbkode/multistep/bdf.py:40-42` (`B = zeros_like(A)`, `:10-12`). -/
def BDF6 : MultistepCoef α 5 where
  A := ![q 10 147, -(q 72 147), q 225 147, -(q 400 147), q 450 147, -(q 360 147)]
  B := fun _ => 0
  Bn := q 60 147

/-! ## `nbkode/euler.py` -/

/-- `nbkode/euler.py:19-27`: inherits `AdamsBashforth1`. -/
def ForwardEuler : MultistepCoef α 0 := AdamsBashforth1

/-- `nbkode/euler.py:30-36`: inherits `AdamsMoulton1`. -/
def BackwardEuler : MultistepCoef α 0 := AdamsMoulton1

/-! ## `nbkode/runge_kutta/explicit.py` -/

/-- `nbkode/runge_kutta/explicit.py:102-105`. -/
def Runge2 : Tableau α 1 where
  A := ![![0, 0],
    ![q 1 2, 0]]
  B := ![0, 1]
  C := ![0, q 1 2]

/-- `nbkode/runge_kutta/explicit.py:108-111`. -/
def Runge3 : Tableau α 3 where
  A := ![![0, 0, 0, 0],
    ![q 1 2, 0, 0, 0],
    ![0, 1, 0, 0],
    ![0, 0, 1, 0]]
  B := ![q 1 6, q 4 6, 0, q 1 6]
  C := ![0, q 1 2, 1, 1]

/-- `nbkode/runge_kutta/explicit.py:114-117`. -/
def Heun3 : Tableau α 2 where
  A := ![![0, 0, 0],
    ![q 1 3, 0, 0],
    ![0, q 2 3, 0]]
  B := ![q 1 4, 0, q 3 4]
  C := ![0, q 1 3, q 2 3]

/-- `nbkode/runge_kutta/explicit.py:120-123`. -/
def RungeKutta4 : Tableau α 3 where
  A := ![![0, 0, 0, 0],
    ![q 1 2, 0, 0, 0],
    ![0, q 1 2, 0, 0],
    ![0, 0, 1, 0]]
  B := ![q 1 6, q 2 6, q 2 6, q 1 6]
  C := ![0, q 1 2, q 1 2, q 2 2]

/-- `nbkode/runge_kutta/explicit.py:126-129`. -/
def RungeKutta3_8 : Tableau α 3 where
  A := ![![0, 0, 0, 0],
    ![q 1 3, 0, 0, 0],
    ![-(q 1 3), 1, 0, 0],
    ![1, -(1), 1, 0]]
  B := ![q 1 8, q 3 8, q 3 8, q 1 8]
  C := ![0, q 1 3, q 2 3, q 3 3]

/-- `nbkode/runge_kutta/explicit.py:266-277`: the tableau of `Fehlberg45` (an abstract class, not registered). -/
def Fehlberg45 : Tableau α 5 where
  A := ![![0, 0, 0, 0, 0, 0],
    ![q 1 4, 0, 0, 0, 0, 0],
    ![q 3 32, q 9 32, 0, 0, 0, 0],
    ![q 1932 2197, -(q 7200 2197), q 7296 2197, 0, 0, 0],
    ![q 439 216, -(q 8 1), q 3680 513, -(q 845 4104), 0, 0],
    ![-(q 8 27), q 2 1, -(q 3544 2565), q 1859 4104, -(q 11 40), 0]]
  B := ![q 25 216, 0, q 1408 2565, q 2197 4104, -(q 1 5), 0]
  C := ![0, q 1 4, q 3 8, q 12 13, 1, q 1 2]

/-- `nbkode/runge_kutta/explicit.py:278`. -/
def Fehlberg45B2 : Fin 6 → α := ![q 16 135, 0, q 6656 12825, q 28561 56430, -(q 9 50), q 2 55]

/-- `nbkode/runge_kutta/explicit.py:54-58` `FSAL.E`: `-B2` with `B` added to all but the last entry. -/
def fsalE {s : Nat} (B : Fin (s + 1) → α) (B2 : Fin (s + 2) → α) : Fin (s + 2) → α :=
  fun i => if h : i.val < s + 1 then -B2 i + B ⟨i.val, h⟩ else -B2 i

/-- `nbkode/runge_kutta/explicit.py:149` `RungeKutta23.B2`. -/
def RungeKutta23B2 : Fin 4 → α := ![q 7 24, q 1 4, q 1 3, q 1 8]

/-- `nbkode/runge_kutta/explicit.py:132-151`; `error_exponent = 1 / (error_estimator_order + 1)`
(`nbkode/runge_kutta/core.py:69-71`). -/
def RungeKutta23 : FsalCoef α 2 3 where
  A := ![![0, 0, 0],
    ![q 1 2, 0, 0],
    ![0, q 3 4, 0]]
  B := ![q 2 9, q 1 3, q 4 9]
  C := ![0, q 1 2, q 3 4]
  E := fsalE ![q 2 9, q 1 3, q 4 9] RungeKutta23B2
  P := ![![1, -(q 4 3), q 5 9],
    ![0, 1, -(q 2 3)],
    ![0, q 4 3, -(q 8 9)],
    ![0, -(1), 1]]
  errorExponent := q 1 3

/-- `nbkode/runge_kutta/explicit.py:168-239`. -/
def RungeKutta45 : FsalCoef α 5 4 where
  A := ![![0, 0, 0, 0, 0, 0],
    ![q 1 5, 0, 0, 0, 0, 0],
    ![q 3 40, q 9 40, 0, 0, 0, 0],
    ![q 44 45, -(q 56 15), q 32 9, 0, 0, 0],
    ![q 19372 6561, -(q 25360 2187), q 64448 6561, -(q 212 729), 0, 0],
    ![q 9017 3168, -(q 355 33), q 46732 5247, q 49 176, -(q 5103 18656), 0]]
  B := ![q 35 384, 0, q 500 1113, q 125 192, -(q 2187 6784), q 11 84]
  C := ![0, q 1 5, q 3 10, q 4 5, q 8 9, 1]
  E := ![-(q 71 57600), 0, q 71 16695, -(q 71 1920), q 17253 339200, -(q 22 525), q 1 40]
  P := ![![1, -(q 8048581381 2820520608), q 8663915743 2820520608, -(q 12715105075 11282082432)],
    ![0, 0, 0, 0],
    ![0, q 131558114200 32700410799, -(q 68118460800 10900136933), q 87487479700 32700410799],
    ![0, -(q 1754552775 470086768), q 14199869525 1410260304, -(q 10690763975 1880347072)],
    ![0, q 127303824393 49829197408, -(q 318862633887 49829197408), q 701980252875 199316789632],
    ![0, -(q 282668133 205662961), q 2019193451 616988883, -(q 1453857185 822651844)],
    ![0, q 40617522 29380423, -(q 110615467 29380423), q 69997945 29380423]]
  errorExponent := q 1 5

/-- `nbkode/runge_kutta/dop853_coefficients.py:7-26` `C`. -/
def dopC : Fin 16 → α := ![0,
      q 526001519587677318785587544488 10000000000000000000000000000000,
      q 789002279381515978178381316732 10000000000000000000000000000000,
      q 118350341907227396726757197510 1000000000000000000000000000000,
      q 281649658092772603273242802490 1000000000000000000000000000000,
      q 333333333333333333333333333333 1000000000000000000000000000000,
      q 25 100,
      q 307692307692307692307692307692 1000000000000000000000000000000,
      q 651282051282051282051282051282 1000000000000000000000000000000,
      q 6 10,
      q 857142857142857142857142857142 1000000000000000000000000000000,
      q 10 10,
      q 10 10,
      q 1 10,
      q 2 10,
      q 777777777777777777777777777778 1000000000000000000000000000000]

/-- `nbkode/runge_kutta/dop853_coefficients.py:28-88` `A`, rows 0-11 (`A[:12, :12]`). -/
def dopA : Fin 12 → Fin 12 → α :=
  ![![0,
      0,
      0,
      0,
      0,
      0,
      0,
      0,
      0,
      0,
      0,
      0],
    ![q 526001519587677318785587544488 10000000000000000000000000000000,
      0,
      0,
      0,
      0,
      0,
      0,
      0,
      0,
      0,
      0,
      0],
    ![q 197250569845378994544595329183 10000000000000000000000000000000,
      q 591751709536136983633785987549 10000000000000000000000000000000,
      0,
      0,
      0,
      0,
      0,
      0,
      0,
      0,
      0,
      0],
    ![q 295875854768068491816892993775 10000000000000000000000000000000,
      0,
      q 887627564304205475450678981324 10000000000000000000000000000000,
      0,
      0,
      0,
      0,
      0,
      0,
      0,
      0,
      0],
    ![q 241365134159266685502369798665 1000000000000000000000000000000,
      0,
      -(q 884549479328286085344864962717 1000000000000000000000000000000),
      q 924834003261792003115737966543 1000000000000000000000000000000,
      0,
      0,
      0,
      0,
      0,
      0,
      0,
      0],
    ![q 37037037037037037037037037037 1000000000000000000000000000000,
      0,
      0,
      q 170828608729473871279604482173 1000000000000000000000000000000,
      q 125467687566822425016691814123 1000000000000000000000000000000,
      0,
      0,
      0,
      0,
      0,
      0,
      0],
    ![q 37109375 1000000000,
      0,
      0,
      q 170252211019544039314978060272 1000000000000000000000000000000,
      q 602165389804559606850219397283 10000000000000000000000000000000,
      -(q 17578125 1000000000),
      0,
      0,
      0,
      0,
      0,
      0],
    ![q 370920001185047927108779319836 10000000000000000000000000000000,
      0,
      0,
      q 170383925712239993810214054705 1000000000000000000000000000000,
      q 107262030446373284651809199168 1000000000000000000000000000000,
      -(q 153194377486244017527936158236 10000000000000000000000000000000),
      q 827378916381402288758473766002 100000000000000000000000000000000,
      0,
      0,
      0,
      0,
      0],
    ![q 624110958716075717114429577812 1000000000000000000000000000000,
      0,
      0,
      -(q 336089262944694129406857109825 100000000000000000000000000000),
      -(q 868219346841726006818189891453 1000000000000000000000000000000),
      q 275920996994467083049415600797 10000000000000000000000000000,
      q 201540675504778934086186788979 10000000000000000000000000000,
      -(q 434898841810699588477366255144 10000000000000000000000000000),
      0,
      0,
      0,
      0],
    ![q 477662536438264365890433908527 1000000000000000000000000000000,
      0,
      0,
      -(q 248811461997166764192642586468 100000000000000000000000000000),
      -(q 590290826836842996371446475743 1000000000000000000000000000000),
      q 212300514481811942347288949897 10000000000000000000000000000,
      q 152792336328824235832596922938 10000000000000000000000000000,
      -(q 332882109689848629194453265587 10000000000000000000000000000),
      -(q 203312017085086261358222928593 10000000000000000000000000000000),
      0,
      0,
      0],
    ![-(q 93714243008598732571704021658 100000000000000000000000000000),
      0,
      0,
      q 518637242884406370830023853209 100000000000000000000000000000,
      q 109143734899672957818500254654 100000000000000000000000000000,
      -(q 814978701074692612513997267357 100000000000000000000000000000),
      -(q 185200656599969598641566180701 10000000000000000000000000000),
      q 227394870993505042818970056734 10000000000000000000000000000,
      q 249360555267965238987089396762 100000000000000000000000000000,
      -(q 30467644718982195003823669022 10000000000000000000000000000),
      0,
      0],
    ![q 227331014751653820792359768449 100000000000000000000000000000,
      0,
      0,
      -(q 105344954667372501984066689879 10000000000000000000000000000),
      -(q 200087205822486249909675718444 100000000000000000000000000000),
      -(q 179589318631187989172765950534 10000000000000000000000000000),
      q 279488845294199600508499808837 10000000000000000000000000000,
      -(q 285899827713502369474065508674 100000000000000000000000000000),
      -(q 887285693353062954433549289258 100000000000000000000000000000),
      q 123605671757943030647266201528 10000000000000000000000000000,
      q 643392746015763530355970484046 1000000000000000000000000000000,
      0]]

/-- `nbkode/runge_kutta/dop853_coefficients.py:90-97`, `:127` `B = A[12, :12]`. -/
def dopB : Fin 12 → α := ![q 542937341165687622380535766363 10000000000000000000000000000000,
      0,
      0,
      0,
      0,
      q 445031289275240888144113950566 100000000000000000000000000000,
      q 189151789931450038304281599044 100000000000000000000000000000,
      -(q 58012039600105847814672114227 10000000000000000000000000000),
      q 31116436695781989440891606237 100000000000000000000000000000,
      -(q 152160949662516078556178806805 1000000000000000000000000000000),
      q 201365400804030348374776537501 1000000000000000000000000000000,
      q 447106157277725905176885569043 10000000000000000000000000000000]

/-- `nbkode/runge_kutta/dop853_coefficients.py:99-124`, `A` rows 13-15 (`A_EXTRA`). -/
def dopAExtra : Fin 3 → Fin 16 → α :=
  ![![q 561675022830479523392909219681 10000000000000000000000000000000,
      0,
      0,
      0,
      0,
      0,
      q 253500210216624811088794765333 1000000000000000000000000000000,
      -(q 246239037470802489917441475441 1000000000000000000000000000000),
      -(q 124191423263816360469010140626 1000000000000000000000000000000),
      q 15329179827876569731206322685 100000000000000000000000000000,
      q 820105229563468988491666602057 100000000000000000000000000000000,
      q 756789766054569976138603589584 100000000000000000000000000000000,
      -(q 8298 1000000),
      0,
      0,
      0],
    ![q 318346481635021405060768473261 10000000000000000000000000000000,
      0,
      0,
      0,
      0,
      q 283009096723667755288322961402 10000000000000000000000000000000,
      q 535419883074385676223797384372 10000000000000000000000000000000,
      -(q 549237485713909884646569340306 10000000000000000000000000000000),
      0,
      0,
      -(q 108347328697249322858509316994 1000000000000000000000000000000000),
      q 382571090835658412954920192323 1000000000000000000000000000000000,
      -(q 340465008687404560802977114492 1000000000000000000000000000000000),
      q 141312443674632500278074618366 1000000000000000000000000000000,
      0,
      0],
    ![-(q 428896301583791923408573538692 1000000000000000000000000000000),
      0,
      0,
      0,
      0,
      -(q 469762141536116384314449447206 100000000000000000000000000000),
      q 768342119606259904184240953878 100000000000000000000000000000,
      q 406898981839711007970213554331 100000000000000000000000000000,
      q 356727187455281109270669543021 1000000000000000000000000000000,
      0,
      0,
      0,
      -(q 139902416515901462129418009734 100000000000000000000000000000000),
      q 29475147891527723389556272149 10000000000000000000000000000,
      -(q 915095847217987001081870187138 100000000000000000000000000000),
      0]]

/-- `nbkode/runge_kutta/dop853_coefficients.py:146-197` `D`. -/
def dopD : Fin 4 → Fin 16 → α :=
  ![![-(q 84289382761090128651353491142 10000000000000000000000000000),
      0,
      0,
      0,
      0,
      q 56671495351937776962531783590 100000000000000000000000000000,
      -(q 30689499459498916912797304727 10000000000000000000000000000),
      q 23846676565120698287728149680 10000000000000000000000000000,
      q 21170345824450282767155149946 10000000000000000000000000000,
      -(q 87139158377797299206789907490 100000000000000000000000000000),
      q 22404374302607882758541771650 10000000000000000000000000000,
      q 63157877876946881815570249290 100000000000000000000000000000,
      -(q 88990336451333310820698117400 1000000000000000000000000000000),
      q 18148505520854727256656404962 1000000000000000000000000000,
      -(q 91946323924783554000451984436 10000000000000000000000000000),
      -(q 44360363875948939664310572000 10000000000000000000000000000)],
    ![q 10427508642579134603413151009 1000000000000000000000000000,
      0,
      0,
      0,
      0,
      q 24228349177525818288430175319 100000000000000000000000000,
      q 16520045171727028198505394887 100000000000000000000000000,
      -(q 37454675472269020279518312152 100000000000000000000000000),
      -(q 22113666853125306036270938578 1000000000000000000000000000),
      q 77334326684722638389603898808 10000000000000000000000000000,
      -(q 30674084731089398182061213626 1000000000000000000000000000),
      -(q 93321305264302278729567221706 10000000000000000000000000000),
      q 15697238121770843886131091075 1000000000000000000000000000,
      -(q 31139403219565177677282850411 1000000000000000000000000000),
      -(q 93529243588444783865713862664 10000000000000000000000000000),
      q 35816841486394083752465898540 1000000000000000000000000000],
    ![q 19985053242002433820987653617 1000000000000000000000000000,
      0,
      0,
      0,
      0,
      -(q 38703730874935176555105901742 100000000000000000000000000),
      -(q 18917813819516756882830838328 100000000000000000000000000),
      q 52780815920542364900561016686 100000000000000000000000000,
      -(q 11573902539959630126141871134 1000000000000000000000000000),
      q 68812326946963000169666922661 10000000000000000000000000000,
      -(q 10006050966910838403183860980 10000000000000000000000000000),
      q 77771377980534432092869265740 100000000000000000000000000000,
      -(q 27782057523535084065932004339 10000000000000000000000000000),
      -(q 60196695231264120758267380846 1000000000000000000000000000),
      q 84320405506677161018159903784 1000000000000000000000000000,
      q 11992291136182789328035130030 1000000000000000000000000000],
    ![-(q 25693933462703749003312586129 1000000000000000000000000000),
      0,
      0,
      0,
      0,
      -(q 15418974869023643374053993627 100000000000000000000000000),
      -(q 23152937917604549567536039109 100000000000000000000000000),
      q 35763911791061412378285349910 100000000000000000000000000,
      q 93405324183624310003907691704 1000000000000000000000000000,
      -(q 37458323136451633156875139351 1000000000000000000000000000),
      q 10409964950896230045147246184 100000000000000000000000000,
      q 29840293426660503123344363579 1000000000000000000000000000,
      -(q 43533456590011143754432175058 1000000000000000000000000000),
      q 96324553959188282948394950600 1000000000000000000000000000,
      -(q 39177261675615439165231486172 1000000000000000000000000000),
      -(q 14972683625798562581422125276 100000000000000000000000000)]]

/-- `nbkode/runge_kutta/dop853_coefficients.py:129-133` `E3`: `B` with three entries reduced. -/
def dopE3 : Fin 13 → α := fun i =>
  if h : i.val < 12 then
    (if i.val = 0 then dopB ⟨i.val, h⟩ - q 244094488188976377952755905512 1000000000000000000000000000000
     else if i.val = 8 then dopB ⟨i.val, h⟩ - q 733846688281611857341361741547 1000000000000000000000000000000
     else if i.val = 11 then dopB ⟨i.val, h⟩ - q 220588235294117647058823529412 10000000000000000000000000000000
     else dopB ⟨i.val, h⟩)
  else 0

/-- `nbkode/runge_kutta/dop853_coefficients.py:135-143` `E5`. -/
def dopE5 : Fin 13 → α := ![q 1312004499419488073250102996 100000000000000000000000000000,
      0,
      0,
      0,
      0,
      -(q 1225156446376204440720569753 1000000000000000000000000000),
      -(q 4957589496572501915214079952 10000000000000000000000000000),
      q 1664377182454986536961530415 1000000000000000000000000000,
      -(q 3503288487499736816886487290 10000000000000000000000000000),
      q 3341791187130174790297318841 10000000000000000000000000000,
      q 8192320648511571246570742613 100000000000000000000000000000,
      -(q 2235530786388629525884427845 100000000000000000000000000000),
      0]

/-- `nbkode/runge_kutta/explicit.py:282-318`. -/
def DOP853 : DopCoef α where
  A := dopA
  B := dopB
  C := fun i => dopC ⟨i.val, by omega⟩
  AExtra := dopAExtra
  CExtra := fun e => dopC ⟨13 + e.val, by omega⟩
  D := dopD
  E3 := dopE3
  E5 := dopE5
  errorExponent := q 1 8

end Nbkode
