import Mathlib.Data.Rat.Defs
import Mathlib.Tactic.NormNum
/-
The tables of the Python optimiser, as exact rationals.  Python stores the nearest doubles.
-/

namespace JKD.Opt

/-- `_kp` (optimizer/key_profiles.py:5-125) -/
def pyProfiles : List (String × List Rat) :=
  [ ("krumhansl_kessler", -- lines 6-16
    [0.15195022732711172, 0.0533620483369227, 0.08327351040918879, 0.05575496530270399,
     0.10480976310122037, 0.09787030390045463, 0.06030150753768843, 0.1241923905240488,
     0.05719071548217276, 0.08758076094759511, 0.05479779851639147, 0.06891600861450106,
     0.14221523253201526, 0.06021118849696697, 0.07908335205571781, 0.12087171422152324,
     0.05841383958660975, 0.07930802066951245, 0.05706582790384183, 0.1067175915524601,
     0.08941810829027184, 0.06043585711076162, 0.07503931700741405, 0.07121995057290496]),
    ("aarden_essen", -- lines 17-27
    [0.17766092893562843, 0.001456239417504233, 0.1492649402940239, 0.0016018593592562562,
     0.19804892078043168, 0.11358695456521818, 0.002912478835008466, 0.2206199117520353,
     0.001456239417504233, 0.08154936738025305, 0.002329979068008373, 0.049512180195127924,
     0.18264800547944018, 0.007376190221285707, 0.14049900421497014, 0.16859900505797015,
     0.0070249402107482066, 0.14436200433086013, 0.0070249402107482066, 0.18616100558483017,
     0.04566210136986304, 0.019318600579558018, 0.07376190221285707, 0.017562300526869017]),
    ("sapp", -- lines 28-36
    [0.2222222222222222, 0.0, 0.1111111111111111, 0.0,
     0.1111111111111111, 0.1111111111111111, 0.0, 0.2222222222222222,
     0.0, 0.1111111111111111, 0.0, 0.1111111111111111,
     0.2222222222222222, 0.0, 0.1111111111111111, 0.1111111111111111,
     0.0, 0.1111111111111111, 0.0, 0.2222222222222222,
     0.1111111111111111, 0.0, 0.05555555555555555, 0.05555555555555555]),
    ("bellman_budge", -- lines 37-45
    [0.168, 0.0086, 0.1295, 0.0141,
     0.1349, 0.1193, 0.0125, 0.2028,
     0.018000000000000002, 0.0804, 0.0062, 0.1057,
     0.1816, 0.0069, 0.12990000000000002, 0.1334,
     0.010700000000000001, 0.1115, 0.0138, 0.2107,
     0.07490000000000001, 0.015300000000000001, 0.0092, 0.10210000000000001]),
    ("temperley", -- lines 46-56
    [0.17616580310880825, 0.014130946773433817, 0.11493170042392838, 0.019312293923692884,
     0.15779557230334432, 0.10833725859632594, 0.02260951483749411, 0.16839378238341965,
     0.02449364107395195, 0.08619877531794629, 0.013424399434762127, 0.09420631182289213,
     0.1702127659574468, 0.020081281377002155, 0.1133158020559407, 0.14774085584508725,
     0.011714080803251255, 0.10996892182644036, 0.02510160172125269, 0.1785799665311977,
     0.09658140090843893, 0.016017212526894576, 0.03179536218025341, 0.07889074826679417]),
    ("albrecht_shanahan1", -- lines 57-63
    [0.238, 0.006, 0.111, 0.006,
     0.137, 0.094, 0.016, 0.214,
     0.009, 0.080, 0.008, 0.081,
     0.220, 0.006, 0.104, 0.123,
     0.019, 0.103, 0.012, 0.214,
     0.062, 0.022, 0.061, 0.052]),
    ("albrecht_shanahan2", -- lines 64-69
    [0.21169, 0.00892766, 0.120448, 0.0100265,
     0.131444, 0.0911768, 0.0215947, 0.204703,
     0.012894, 0.0900445, 0.012617, 0.0844338,
     0.201933, 0.009335, 0.107284, 0.124169,
     0.0199224, 0.108324, 0.014314, 0.202699,
     0.0653907, 0.0252515, 0.071959, 0.049419]),
    ("experiment4", -- lines 70-75
    [0.17616580310880825, 0.014130946773433817, 0.11493170042392838, 0.019312293923692884,
     0.15779557230334432, 0.10833725859632594, 0.02260951483749411, 0.17329251059821005,
     0.01959491285916156, 0.08619877531794629, 0.013424399434762127, 0.09420631182289213,
     0.2222222222222222, 0.0, 0.1111111111111111, 0.12222222222222222,
     0.0, 0.1111111111111111, 0.008888888888888889, 0.2222222222222222,
     0.1111111111111111, 0.0, 0.05555555555555555, 0.03555555555555555]),
    ("experiment6", -- lines 76-86
    [0.13675520459440055, 0.0533620483369227, 0.08327351040918879, 0.05575496530270399,
     0.12000478583393154, 0.09787030390045463, 0.06030150753768843, 0.1241923905240488,
     0.05719071548217276, 0.08758076094759511, 0.05479779851639147, 0.06891600861450106,
     0.14221523253201526, 0.06021118849696697, 0.07908335205571781, 0.12087171422152324,
     0.05841383958660975, 0.07930802066951245, 0.05706582790384183, 0.1067175915524601,
     0.08941810829027184, 0.06043585711076162, 0.07503931700741405, 0.07121995057290496]),
    ("napoles_midi128", -- lines 87-97
    [0.136755204594401, 0.065608997367791, 0.074946159368270, 0.050179468772434,
     0.100358937544867, 0.103445800430725, 0.054271356783920, 0.139387413256760,
     0.060904522613065, 0.087580760947595, 0.049318018664752, 0.077243359655420,
     0.148236351381712, 0.048771062682543, 0.079083352055718, 0.120871714221523,
     0.047315210065154, 0.079308020669512, 0.068950797573579, 0.096045832397214,
     0.101959110312289, 0.059649516962480, 0.085711076162660, 0.064097955515614]),
    ("simple_natural_minor", -- lines 98-106
    [0.2222222222222222, 0.0, 0.1111111111111111, 0.0,
     0.1111111111111111, 0.1111111111111111, 0.0, 0.2222222222222222,
     0.0, 0.1111111111111111, 0.0, 0.1111111111111111,
     0.2222222222222222, 0.0, 0.1111111111111111, 0.1111111111111111,
     0.0, 0.1111111111111111, 0.0, 0.2222222222222222,
     0.1111111111111111, 0.0, 0.1111111111111111, 0.0]),
    ("simple_harmonic_minor", -- lines 107-115
    [0.2222222222222222, 0.0, 0.1111111111111111, 0.0,
     0.1111111111111111, 0.1111111111111111, 0.0, 0.2222222222222222,
     0.0, 0.1111111111111111, 0.0, 0.1111111111111111,
     0.2222222222222222, 0.0, 0.1111111111111111, 0.1111111111111111,
     0.0, 0.1111111111111111, 0.0, 0.2222222222222222,
     0.1111111111111111, 0.0, 0.0, 0.1111111111111111]),
    ("simple_melodic_minor", -- lines 116-124
    [0.2222222222222222, 0.0, 0.1111111111111111, 0.0,
     0.1111111111111111, 0.1111111111111111, 0.0, 0.2222222222222222,
     0.0, 0.1111111111111111, 0.0, 0.1111111111111111,
     0.2222222222222222, 0.0, 0.1111111111111111, 0.1111111111111111,
     0.0, 0.1111111111111111, 0.0, 0.2222222222222222,
     0.05555555555555555, 0.05555555555555555, 0.05555555555555555, 0.05555555555555555]) ]

/-- `_kt` (optimizer/key_transitions.py:5-94) -/
def pyTransitions : List (String × List Rat) :=
  [ ("ktg_linear", -- lines 6-11
    [9 / 132, 4 / 132, 6 / 132, 6 / 132,
     5 / 132, 8 / 132, 1 / 132, 8 / 132,
     5 / 132, 6 / 132, 6 / 132, 4 / 132,
     8 / 132, 2 / 132, 7 / 132, 3 / 132,
     7 / 132, 7 / 132, 3 / 132, 7 / 132,
     2 / 132, 8 / 132, 5 / 132, 5 / 132]),
    ("ktg_exponential2", -- lines 12-17
    [256 / 1245, 8 / 1245, 32 / 1245, 32 / 1245,
     16 / 1245, 128 / 1245, 1 / 1245, 128 / 1245,
     16 / 1245, 32 / 1245, 32 / 1245, 8 / 1245,
     128 / 1245, 2 / 1245, 64 / 1245, 4 / 1245,
     64 / 1245, 64 / 1245, 4 / 1245, 64 / 1245,
     2 / 1245, 128 / 1245, 16 / 1245, 16 / 1245]),
    ("ktg_exponential4", -- lines 18-28
    [0.429054960883, 0.000418998985, 0.006703983764, 0.006703983764,
     0.001675995941, 0.107263740221, 0.000006546859, 0.107263740221,
     0.001675995941, 0.006703983764, 0.006703983764, 0.000418998985,
     0.107263740221, 0.000026187437, 0.026815935055, 0.000104749746,
     0.026815935055, 0.026815935055, 0.000104749746, 0.026815935055,
     0.000026187437, 0.107263740221, 0.001675995941, 0.001675995941]),
    ("ktg_exponential5", -- lines 29-39
    [0.500201040802, 0.000160064333, 0.004001608326, 0.004001608326,
     0.000800321665, 0.100040208160, 0.000001280515, 0.100040208160,
     0.000800321665, 0.004001608326, 0.004001608326, 0.000160064333,
     0.100040208160, 0.000006402573, 0.020008041632, 0.000032012867,
     0.020008041632, 0.020008041632, 0.000032012867, 0.020008041632,
     0.000006402573, 0.100040208160, 0.000800321665, 0.000800321665]),
    ("ktg_exponential10", -- lines 40-49
    [100000000 / 144442221, 1000 / 144442221, 100000 / 144442221, 100000 / 144442221,
     10000 / 144442221, 10000000 / 144442221, 1 / 144442221, 10000000 / 144442221,
     10000 / 144442221, 100000 / 144442221, 100000 / 144442221, 1000 / 144442221,
     10000000 / 144442221, 10 / 144442221, 1000000 / 144442221, 100 / 144442221,
     1000000 / 144442221, 1000000 / 144442221, 100 / 144442221, 1000000 / 144442221,
     10 / 144442221, 10000000 / 144442221, 10000 / 144442221, 10000 / 144442221]),
    ("ktg_exponential12", -- lines 50-58
    [0.733338050205, 0.000002947121, 0.000424385446, 0.000424385446,
     0.000035365454, 0.061111504184, 0.000000001706, 0.061111504184,
     0.000035365454, 0.000424385446, 0.000424385446, 0.000002947121,
     0.061111504184, 0.000000020466, 0.005092625349, 0.000000245593,
     0.005092625349, 0.005092625349, 0.000000245593, 0.005092625349,
     0.000000020466, 0.061111504184, 0.000035365454, 0.000035365454]),
    ("ktg_exponential15", -- lines 59-69
    [0.777779485108, 0.000001024236, 0.000230453181, 0.000230453181,
     0.000015363545, 0.051851965674, 0.000000000303, 0.051851965674,
     0.000015363545, 0.000230453181, 0.000230453181, 0.000001024236,
     0.051851965674, 0.000000004552, 0.003456797712, 0.000000068282,
     0.003456797712, 0.003456797712, 0.000000068282, 0.003456797712,
     0.000000004552, 0.051851965674, 0.000015363545, 0.000015363545]),
    ("ktg_exponential20", -- lines 70-80
    [0.826087405512, 0.000000258152, 0.000103260926, 0.000103260926,
     0.000005163046, 0.041304370276, 0.000000000032, 0.041304370276,
     0.000005163046, 0.000103260926, 0.000103260926, 0.000000258152,
     0.041304370276, 0.000000000645, 0.002065218514, 0.000000012908,
     0.002065218514, 0.002065218514, 0.000000012908, 0.002065218514,
     0.000000000645, 0.041304370276, 0.000005163046, 0.000005163046]),
    ("ktg_experiment6", -- lines 81-85
    [0.8765246313562368, 3.993824473043542e-8, 3.450952918589394e-5, 3.450952918589394e-5,
     1.1739889361311444e-6, 0.02981872670344273, 1.5724030710075827e-12, 0.02981872670344273,
     1.1739889361311444e-6, 3.450952918589394e-5, 3.450952918589394e-5, 3.993824473043542e-8,
     0.02981872670344273, 4.622095490077414e-11, 0.0010144112674150716, 1.3586698673708549e-9,
     0.0010144112674150716, 0.0010144112674150716, 1.3586698673708549e-9, 0.0010144112674150716,
     4.622095490077414e-11, 0.02981872670344273, 1.1739889361311444e-6, 1.1739889361311444e-6]),
    ("ktg_napoles_midi128", -- lines 86-93
    [0.7877447304, 0.0000007887, 0.0001980156, 0.0001980156,
     0.0000124969, 0.0497153048, 0.0000000002, 0.0497153048,
     0.0000124969, 0.0001980156, 0.0001980156, 0.0000007887,
     0.0497153048, 0.0000000031, 0.0031375793, 0.0000000498,
     0.0031375793, 0.0031375793, 0.0000000498, 0.0031375793,
     0.0000000031, 0.0497153048, 0.0000124969, 0.0000124969]) ]

end JKD.Opt
