/-
How probable the keys are on the phrases of Spec/Phrases.lean, with integers: a computation that the kernel carries out
(`checked`), and tables whose meaning is proved in Props/PhraseProps.lean.
-/

namespace JKD.Phrases

/-- The transition table exponential10 times 144442221: line `k` holds the numbers for going from key 0, 1, ... to key `k`. -/
def goTable : List (List Nat) :=
  [[100000000, 1000, 100000, 100000, 10000, 10000000, 1, 10000000, 10000, 100000, 100000, 1000,
    10000000, 10, 1000000, 100, 1000000, 1000000, 100, 1000000, 10, 10000000, 10000, 10000],
   [1000, 100000000, 1000, 100000, 100000, 10000, 10000000, 1, 10000000, 10000, 100000, 100000,
    10000, 10000000, 10, 1000000, 100, 1000000, 1000000, 100, 1000000, 10, 10000000, 10000],
   [100000, 1000, 100000000, 1000, 100000, 100000, 10000, 10000000, 1, 10000000, 10000, 100000,
    10000, 10000, 10000000, 10, 1000000, 100, 1000000, 1000000, 100, 1000000, 10, 10000000],
   [100000, 100000, 1000, 100000000, 1000, 100000, 100000, 10000, 10000000, 1, 10000000, 10000,
    10000000, 10000, 10000, 10000000, 10, 1000000, 100, 1000000, 1000000, 100, 1000000, 10],
   [10000, 100000, 100000, 1000, 100000000, 1000, 100000, 100000, 10000, 10000000, 1, 10000000,
    10, 10000000, 10000, 10000, 10000000, 10, 1000000, 100, 1000000, 1000000, 100, 1000000],
   [10000000, 10000, 100000, 100000, 1000, 100000000, 1000, 100000, 100000, 10000, 10000000, 1,
    1000000, 10, 10000000, 10000, 10000, 10000000, 10, 1000000, 100, 1000000, 1000000, 100],
   [1, 10000000, 10000, 100000, 100000, 1000, 100000000, 1000, 100000, 100000, 10000, 10000000,
    100, 1000000, 10, 10000000, 10000, 10000, 10000000, 10, 1000000, 100, 1000000, 1000000],
   [10000000, 1, 10000000, 10000, 100000, 100000, 1000, 100000000, 1000, 100000, 100000, 10000,
    1000000, 100, 1000000, 10, 10000000, 10000, 10000, 10000000, 10, 1000000, 100, 1000000],
   [10000, 10000000, 1, 10000000, 10000, 100000, 100000, 1000, 100000000, 1000, 100000, 100000,
    1000000, 1000000, 100, 1000000, 10, 10000000, 10000, 10000, 10000000, 10, 1000000, 100],
   [100000, 10000, 10000000, 1, 10000000, 10000, 100000, 100000, 1000, 100000000, 1000, 100000,
    100, 1000000, 1000000, 100, 1000000, 10, 10000000, 10000, 10000, 10000000, 10, 1000000],
   [100000, 100000, 10000, 10000000, 1, 10000000, 10000, 100000, 100000, 1000, 100000000, 1000,
    1000000, 100, 1000000, 1000000, 100, 1000000, 10, 10000000, 10000, 10000, 10000000, 10],
   [1000, 100000, 100000, 10000, 10000000, 1, 10000000, 10000, 100000, 100000, 1000, 100000000,
    10, 1000000, 100, 1000000, 1000000, 100, 1000000, 10, 10000000, 10000, 10000, 10000000],
   [10000000, 10000, 10000, 10000000, 10, 1000000, 100, 1000000, 1000000, 100, 1000000, 10,
    100000000, 1000, 100000, 100000, 10000, 10000000, 1, 10000000, 10000, 100000, 100000, 1000],
   [10, 10000000, 10000, 10000, 10000000, 10, 1000000, 100, 1000000, 1000000, 100, 1000000,
    1000, 100000000, 1000, 100000, 100000, 10000, 10000000, 1, 10000000, 10000, 100000, 100000],
   [1000000, 10, 10000000, 10000, 10000, 10000000, 10, 1000000, 100, 1000000, 1000000, 100,
    100000, 1000, 100000000, 1000, 100000, 100000, 10000, 10000000, 1, 10000000, 10000, 100000],
   [100, 1000000, 10, 10000000, 10000, 10000, 10000000, 10, 1000000, 100, 1000000, 1000000,
    100000, 100000, 1000, 100000000, 1000, 100000, 100000, 10000, 10000000, 1, 10000000, 10000],
   [1000000, 100, 1000000, 10, 10000000, 10000, 10000, 10000000, 10, 1000000, 100, 1000000,
    10000, 100000, 100000, 1000, 100000000, 1000, 100000, 100000, 10000, 10000000, 1, 10000000],
   [1000000, 1000000, 100, 1000000, 10, 10000000, 10000, 10000, 10000000, 10, 1000000, 100,
    10000000, 10000, 100000, 100000, 1000, 100000000, 1000, 100000, 100000, 10000, 10000000, 1],
   [100, 1000000, 1000000, 100, 1000000, 10, 10000000, 10000, 10000, 10000000, 10, 1000000,
    1, 10000000, 10000, 100000, 100000, 1000, 100000000, 1000, 100000, 100000, 10000, 10000000],
   [1000000, 100, 1000000, 1000000, 100, 1000000, 10, 10000000, 10000, 10000, 10000000, 10,
    10000000, 1, 10000000, 10000, 100000, 100000, 1000, 100000000, 1000, 100000, 100000, 10000],
   [10, 1000000, 100, 1000000, 1000000, 100, 1000000, 10, 10000000, 10000, 10000, 10000000,
    10000, 10000000, 1, 10000000, 10000, 100000, 100000, 1000, 100000000, 1000, 100000, 100000],
   [10000000, 10, 1000000, 100, 1000000, 1000000, 100, 1000000, 10, 10000000, 10000, 10000,
    100000, 10000, 10000000, 1, 10000000, 10000, 100000, 100000, 1000, 100000000, 1000, 100000],
   [10000, 10000000, 10, 1000000, 100, 1000000, 1000000, 100, 1000000, 10, 10000000, 10000,
    100000, 100000, 10000, 10000000, 1, 10000000, 10000, 100000, 100000, 1000, 100000000, 1000],
   [10000, 10000, 10000000, 10, 1000000, 100, 1000000, 1000000, 100, 1000000, 10, 10000000,
    1000, 100000, 100000, 10000, 10000000, 1, 10000000, 10000, 100000, 100000, 1000, 100000000]]

/-- The major profiles times 10²². -/
def majTable : List (String × List Nat) :=
  [("krumhansl_kessler",
    [1519502273271117200000, 533620483369227000000, 832735104091887900000, 557549653027039900000,
     1048097631012203700000, 978703039004546300000, 603015075376884300000, 1241923905240488000000,
     571907154821727600000, 875807609475951100000, 547977985163914700000, 689160086145010600000]),
   ("aarden_essen",
    [1776609289356284300000, 14562394175042330000, 1492649402940239000000, 16018593592562562000,
     1980489207804316800000, 1135869545652181800000, 29124788350084660000, 2206199117520353000000,
     14562394175042330000, 815493673802530500000, 23299790680083730000, 495121801951279240000]),
   ("bellman_budge",
    [1680000000000000000000, 86000000000000000000, 1295000000000000000000, 141000000000000000000,
     1349000000000000000000, 1193000000000000000000, 125000000000000000000, 2028000000000000000000,
     180000000000000020000, 804000000000000000000, 62000000000000000000, 1057000000000000000000]),
   ("sapp",
    [2222222222222222000000, 0, 1111111111111111000000, 0,
     1111111111111111000000, 1111111111111111000000, 0, 2222222222222222000000,
     0, 1111111111111111000000, 0, 1111111111111111000000]),
   ("temperley",
    [1761658031088082500000, 141309467734338170000, 1149317004239283800000, 193122939236928840000,
     1577955723033443200000, 1083372585963259400000, 226095148374941100000, 1683937823834196500000,
     244936410739519500000, 861987753179462900000, 134243994347621270000, 942063118228921300000])]

/-- The minor profiles times 10²². -/
def minTable : List (String × List Nat) :=
  [("krumhansl_kessler",
    [1422152325320152600000, 602111884969669700000, 790833520557178100000, 1208717142215232400000,
     584138395866097500000, 793080206695124500000, 570658279038418300000, 1067175915524601000000,
     894181082902718400000, 604358571107616200000, 750393170074140500000, 712199505729049600000]),
   ("aarden_essen",
    [1826480054794401800000, 73761902212857070000, 1404990042149701400000, 1685990050579701500000,
     70249402107482066000, 1443620043308601300000, 70249402107482066000, 1861610055848301700000,
     456621013698630400000, 193186005795580180000, 737619022128570700000, 175623005268690170000]),
   ("bellman_budge",
    [1816000000000000000000, 69000000000000000000, 1299000000000000200000, 1334000000000000000000,
     107000000000000010000, 1115000000000000000000, 138000000000000000000, 2107000000000000000000,
     749000000000000100000, 153000000000000010000, 92000000000000000000, 1021000000000000100000]),
   ("sapp",
    [2222222222222222000000, 0, 1111111111111111000000, 1111111111111111000000,
     0, 1111111111111111000000, 0, 2222222222222222000000,
     1111111111111111000000, 0, 555555555555555500000, 555555555555555500000]),
   ("temperley",
    [1702127659574468000000, 200812813770021550000, 1133158020559407000000, 1477408558450872500000,
     117140808032512550000, 1099689218264403600000, 251016017212526900000, 1785799665311977000000,
     965814009084389300000, 160172125268945760000, 317953621802534100000, 788907482667941700000])]

/-- Potentials between two phrases in C major, in thousandths. -/
def majorPot : List Nat :=
  [1000, 58, 179, 210, 111, 731, 39, 809, 145, 103, 158, 71,
   567, 117, 276, 52, 759, 764, 64, 396, 109, 798, 73, 157]

/-- Potentials between two phrases in C minor, in thousandths. -/
def minorPot : List Nat :=
  [771, 108, 144, 748, 64, 305, 78, 714, 570, 52, 321, 95,
   1000, 95, 156, 151, 477, 544, 65, 735, 163, 242, 118, 145]

/-- Computes a number before it is used. -/
def force {β : Type} (n : Nat) (k : Nat → β) : β :=
  match n with
  | 0 => k 0
  | n + 1 => k (n + 1)

/-- The greatest of `acc` and the products of two lists. -/
def colMax : Nat → List Nat → List Nat → Nat
  | acc, v :: vs, g :: gs => force (acc + (v * g - acc)) (fun a => colMax a vs gs)
  | acc, _, _ => acc

/-- The potentials after a note, handed to `cont`; `d` is the value of staying. -/
def next (acc : Nat) (V : List Nat) (d : Nat) : List (List Nat) → List Nat → (List Nat → Bool) → Bool
  | g :: gs, e :: es, cont =>
    force ((colMax acc V g * e + (d - 1)) / d) (fun x => next acc V d gs es (fun l => cont (x :: l)))
  | _, _, cont => cont []

/-- Every number is at most the one of the other list. -/
def below : List Nat → List Nat → Bool
  | v :: vs, u :: us => v.ble u && below vs us
  | [], [] => true
  | _, _ => false

/-- How probable the pitch class `o` is in the 24 keys. -/
def play (maj min : List Nat) (o : Nat) : List Nat :=
  (List.range 12).map (fun k => maj.getD ((o + 12 - k) % 12) 0) ++ (List.range 12).map (fun k => min.getD ((o + 12 - k) % 12) 0)

/-- Coming back to key `K` loses a tenth. -/
def backOk (K : Nat) (V : List Nat) : Bool :=
  (10 * colMax 0 (V.set K 0) (goTable.getD K [])).ble (9 * 1000 * 100000000)

/-- Follows the potentials through a phrase. -/
def walk (maj min : List Nat) (K : Nat) (U : List Nat) : List Nat → List Nat → Bool
  | V, [] => below V U
  | V, o :: os => backOk K V &&
    force (100000000 * (play maj min o).getD K 0) (fun d => Nat.blt 0 d &&
      next 0 V d goTable (play maj min o) (fun V' => walk maj min K U V' os))

/-- A phrase, at the beginning of the piece or later. -/
def phraseOk (maj min : List Nat) (K : Nat) (U : List Nat) : List Nat → Bool
  | [] => true
  | o :: os => backOk K U &&
    force (100000000 * (play maj min o).getD K 0) (fun d => Nat.blt 0 d &&
      next (1000 * 100000000) U d goTable (play maj min o) (fun V => walk maj min K U V os))

end JKD.Phrases
