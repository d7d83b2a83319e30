import Verif.Model.FPU
import Verif.Model.Key
import Verif.Model.PitchClass
/-
Model of `KeyProfile` (include/keyprofile.h, src/keyprofile.cc).
-/

namespace JKD

/-- A `KeyProfile` object (include/keyprofile.h): the two selected names (default-constructed `""`)
and the two name-indexed families of arrays.  A `std::array<double, 12>` is a list. -/
structure KeyProfile (D : Type) where
  majName : String
  minName : String
  majTables : AMap String (List D)
  minTables : AMap String (List D)

namespace KeyProfile

variable {D : Type}

/-- The built-in major profiles (src/keyprofile.cc:66-100), exact decimal values. -/
def majBuiltins : List (String × List Rat) :=
  [("krumhansl_kessler",
    [0.15195022732711172, 0.0533620483369227, 0.08327351040918879,
     0.05575496530270399, 0.10480976310122037, 0.09787030390045463,
     0.06030150753768843, 0.1241923905240488, 0.05719071548217276,
     0.08758076094759511, 0.05479779851639147, 0.06891600861450106]),
   ("aarden_essen",
    [0.17766092893562843, 0.001456239417504233, 0.1492649402940239,
     0.0016018593592562562, 0.19804892078043168, 0.11358695456521818,
     0.002912478835008466, 0.2206199117520353, 0.001456239417504233,
     0.08154936738025305, 0.002329979068008373, 0.049512180195127924]),
   ("sapp",
    [0.2222222222222222, 0.0, 0.1111111111111111, 0.0,
     0.1111111111111111, 0.1111111111111111, 0.0, 0.2222222222222222,
     0.0, 0.1111111111111111, 0.0, 0.1111111111111111]),
   ("bellman_budge",
    [0.168, 0.0086, 0.1295, 0.0141, 0.1349, 0.1193,
     0.0125, 0.2028, 0.018000000000000002, 0.0804, 0.0062, 0.1057]),
   ("temperley",
    [0.17616580310880825, 0.014130946773433817, 0.11493170042392838,
     0.019312293923692884, 0.15779557230334432, 0.10833725859632594,
     0.02260951483749411, 0.16839378238341965, 0.02449364107395195,
     0.08619877531794629, 0.013424399434762127, 0.09420631182289213]),
   ("albrecht_shanahan1",
    [0.238, 0.006, 0.111, 0.006, 0.137, 0.094,
     0.016, 0.214, 0.009, 0.080, 0.008, 0.081]),
   ("albrecht_shanahan2",
    [0.21169, 0.00892766, 0.120448, 0.0100265, 0.131444, 0.0911768,
     0.0215947, 0.204703, 0.012894, 0.0900445, 0.012617, 0.0844338])]

/-- The built-in minor profiles (src/keyprofile.cc:101-153), exact decimal values. -/
def minBuiltins : List (String × List Rat) :=
  [("krumhansl_kessler",
    [0.14221523253201526, 0.06021118849696697, 0.07908335205571781,
     0.12087171422152324, 0.05841383958660975, 0.07930802066951245,
     0.05706582790384183, 0.1067175915524601, 0.08941810829027184,
     0.06043585711076162, 0.07503931700741405, 0.07121995057290496]),
   ("aarden_essen",
    [0.18264800547944018, 0.007376190221285707, 0.14049900421497014,
     0.16859900505797015, 0.0070249402107482066, 0.14436200433086013,
     0.0070249402107482066, 0.18616100558483017, 0.04566210136986304,
     0.019318600579558018, 0.07376190221285707, 0.017562300526869017]),
   ("sapp",
    [0.2222222222222222, 0.0, 0.1111111111111111, 0.1111111111111111,
     0.0, 0.1111111111111111, 0.0, 0.2222222222222222,
     0.1111111111111111, 0.0, 0.05555555555555555, 0.05555555555555555]),
   ("bellman_budge",
    [0.1816, 0.0069, 0.12990000000000002,
     0.1334, 0.010700000000000001, 0.1115,
     0.0138, 0.2107, 0.07490000000000001,
     0.015300000000000001, 0.0092, 0.10210000000000001]),
   ("temperley",
    [0.1702127659574468, 0.020081281377002155, 0.1133158020559407,
     0.14774085584508725, 0.011714080803251255, 0.10996892182644036,
     0.02510160172125269, 0.1785799665311977, 0.09658140090843893,
     0.016017212526894576, 0.03179536218025341, 0.07889074826679417]),
   ("albrecht_shanahan1",
    [0.220, 0.006, 0.104, 0.123, 0.019, 0.103,
     0.012, 0.214, 0.062, 0.022, 0.061, 0.052]),
   ("albrecht_shanahan2",
    [0.201933, 0.009335, 0.107284, 0.124169, 0.0199224, 0.108324,
     0.014314, 0.202699, 0.0653907, 0.0252515, 0.071959, 0.049419]),
   ("simple_natural_minor",
    [0.2222222222222222, 0.0, 0.1111111111111111, 0.1111111111111111,
     0.0, 0.1111111111111111, 0.0, 0.2222222222222222,
     0.1111111111111111, 0.0, 0.1111111111111111, 0.0]),
   ("simple_harmonic_minor",
    [0.2222222222222222, 0.0, 0.1111111111111111, 0.1111111111111111,
     0.0, 0.1111111111111111, 0.0, 0.2222222222222222,
     0.1111111111111111, 0.0, 0.0, 0.1111111111111111]),
   ("simple_melodic_minor",
    [0.2222222222222222, 0.0, 0.1111111111111111, 0.1111111111111111,
     0.0, 0.1111111111111111, 0.0, 0.2222222222222222,
     0.05555555555555555, 0.05555555555555555, 0.05555555555555555, 0.05555555555555555])]

/-- `initKeyProfileArrays`, major half (src/keyprofile.cc:66-100). -/
def initMaj (F : FPU D) : AMap String (List D) := majBuiltins.map (fun p => (p.1, p.2.map F.ofRat))

/-- `initKeyProfileArrays`, minor half (src/keyprofile.cc:101-153). -/
def initMin (F : FPU D) : AMap String (List D) := minBuiltins.map (fun p => (p.1, p.2.map F.ofRat))

/-- `isValidMajorKeyProfile` (src/keyprofile.cc:157-159). -/
def isValidMaj (kp : KeyProfile D) (s : String) : Bool := (kp.majTables.get? s).isSome

/-- `isValidMinorKeyProfile` (src/keyprofile.cc:161-163). -/
def isValidMin (kp : KeyProfile D) (s : String) : Bool := (kp.minTables.get? s).isSome

/-- `KeyProfile(maj, min, majCustom, minCustom)` (src/keyprofile.cc:44-63). -/
def mk4 (F : FPU D) (maj min : String) (majCustom minCustom : List D) : KeyProfile D :=
  let tM := initMaj F
  let tm := initMin F
  let tM := if maj = "custom" then tM.set maj majCustom else tM
  let tm := if min = "custom" then tm.set min minCustom else tm
  let kp : KeyProfile D := { majName := "", minName := "", majTables := tM, minTables := tm }
  if kp.isValidMaj maj && kp.isValidMin min then { kp with majName := maj, minName := min } else kp

/-- `KeyProfile(maj, min)` (src/keyprofile.cc:37-42). -/
def mk2 (F : FPU D) (maj min : String) : KeyProfile D :=
  mk4 F maj min (List.replicate 12 F.zero) (List.replicate 12 F.zero)

/-- `KeyProfile(name)` (src/keyprofile.cc:34-35). -/
def mk1 (F : FPU D) (s : String) : KeyProfile D := mk2 F s s

/-- `KeyProfile()` (src/keyprofile.cc:31-32). -/
def mk0 (F : FPU D) : KeyProfile D := mk2 F "temperley" "sapp"

/-- `whichMajorKeyProfile` (src/keyprofile.cc:165-167). -/
def whichMaj (kp : KeyProfile D) : String := kp.majName

/-- `whichMinorKeyProfile` (src/keyprofile.cc:168-170). -/
def whichMin (kp : KeyProfile D) : String := kp.minName

/-- `getMajorKeyProfile` (src/keyprofile.cc:171-173); `operator[]` inserts an all-zero array when the
selected name is missing. -/
def getMaj (F : FPU D) (kp : KeyProfile D) : List D × KeyProfile D :=
  match kp.majTables.get? kp.majName with
  | some a => (a, kp)
  | none =>
    let z := List.replicate 12 F.zero
    (z, { kp with majTables := kp.majTables.set kp.majName z })

/-- `getMinorKeyProfile` (src/keyprofile.cc:174-176). -/
def getMin (F : FPU D) (kp : KeyProfile D) : List D × KeyProfile D :=
  match kp.minTables.get? kp.minName with
  | some a => (a, kp)
  | none =>
    let z := List.replicate 12 F.zero
    (z, { kp with minTables := kp.minTables.set kp.minName z })

/-- One row of the map (body of the loop src/keyprofile.cc:186-206) for a key with profile `prof`. -/
def mapRow (prof : List D) (k : Key) : Res (IMap D) := do
  let n ← k.getInt
  let key := n.tmod 12
  let rotation := 12 - key
  let arr := rotate prof rotation.toNat
  forM PitchClass.all ([] : IMap D) (fun row p => do
    let pc ← p.getInt
    let v ← Res.read arr[pc.toNat]?
    return row.set pc v)

/-- `getKeyProfileMap` (src/keyprofile.cc:178-209).  The state is the map under construction together
with the object, because `getMajorKeyProfile`/`getMinorKeyProfile` may insert. As for transitions, map
keys are represented by their numbers. -/
def getMap (F : FPU D) (kp : KeyProfile D) : Res (IMap (IMap D) × KeyProfile D) :=
  forM Key.all (([] : IMap (IMap D)), kp) (fun s k => do
    let (prof, kp') := if ← k.isMajor then s.2.getMaj F else s.2.getMin F
    let row ← mapRow prof k
    let n ← k.getInt
    return (s.1.set n row, kp'))

end KeyProfile
end JKD
