# Formal model of justkeydding: design

Source: `/repo` (napulen/justkeydding, pinned), read as text; nothing from it is built or run.
Model and proofs: Lean 4 (`lean/Verif`).  Properties: `properties.jsonl`.
Claims and theorem names: `MANIFEST.json`.  Mutation log: `seeded/LOG.jsonl`.

## Trusted base

* Lean 4's kernel and the three standard axioms `propext`, `Classical.choice`, `Quot.sound`
  (every theorem's axioms are a subset; `#print axioms` is run by the gate).  No own axioms,
  no `sorry`, no `native_decide`/`bv_decide`.
* The hand translation from C++/Python to Lean.  Every definition cites the file and lines it
  models and states its simplifications.
* External pieces that are *parameters* of the model, never axioms:
  - IEEE-754 double arithmetic: a record `FPU D` (literals, `+`, `*`, `<`, `==`, `log10`, `floor`,
    conversion to int).  Theorems either use no law at all, or use the laws listed in
    `Verif/Spec/FPLaws.lean` and `OrderLaws` (`Verif/Lemmas/Chromagram.lean`), which are *proved* in
    `Verif/FP` for concrete instances (exact real arithmetic; rounded arithmetic for any monotone
    rounding; a concrete binary64 rounding with ties to even, subnormals, overflow to infinity).
    C120 and C121 assume of the C library's `log10` and division only that they are finite and within a given error of the exact
    value; correctly rounded ones are shown to qualify.
  - the iteration order of `std::unordered_map` (an arbitrary permutation),
  - text/number conversion (`std::stof`, `operator>>`, `operator<<`), the file system,
    the option parser, libsndfile, the Vamp host, midifile, Python's `random`.
* Python floats in the optimiser are elements of a linear ordered field (exact arithmetic); `int(n*0.2)` and
  `int(n*0.3)` are taken as floor of n/5 and 3n/10; names of generated tables are constructors, not strings.
* scikit-learn's `MinMaxScaler` (its documented formula), numpy `reshape`/`dump`/`load`, `ThreadPool.map` keeping
  order, Python's `re` for the two loader patterns, numpy `concatenate`, and `csv.reader` as CPython's state machine.
* scikit-learn's `LogisticRegression` as documented (C153): multinomial objective with l2 penalty and no intercept in real
  numbers, `fit` within a parameter `ε` of its minimum, `predict` the first class of the largest decision value.
* The shell and `cp`, `mv`, `rm`, `cut`, `printf`, `echo` for plain names in folders of plain files (ToolsShell.lean); the
  scripts with DOS line ends are read as by a shell that skips the carriage returns.
* Not modelled: the adapters of the Vamp host library (overlapping frames, window, Fourier transform), which are not in
  the repository - the plug-in's blocks are arbitrary spectra, and in C95 and C96 the adapters are a parameter, with a
  windowed Fourier transform at arbitrary frame positions as an instance; process start-up, locale other than "C",
  memory exhaustion.

## Outcomes

`Res α` = `ok a | ub | throw e`.  Undefined behaviour (reading an indeterminate `int`, dereferencing
`end()`, out-of-bounds access, flowing off a value-returning function, signed overflow) is the distinct
outcome `ub`; a C++ exception is `throw`.  A claim "the code is safe" is the claim that the outcome is
not `ub`.  Where the code is UB on *every* interesting input (end() dereference in
`Chromagram::getPitchClassSequence`) a second, lenient semantics with an oracle for the garbage value
is also modelled, so the intended behaviour can still be proved for every oracle value.

## Per property: model and proof plan

| id | modelled | proof |
|---|---|---|
| C01-C04 | `PitchClass` object (optional int, string), 21-name table, comparison | table finite: lift kernel-checked table facts to all strings by list-lookup lemmas; ints by case split |
| C05-C07 | `Key` object, 42-name table, unsigned range check | same |
| C08-C11 | relation methods with C `%` (`Int.tmod`) | all 24 keys by kernel decision, lifted through the range invariant; iteration by induction; transposition by `omega`/ZMod arithmetic |
| C12, C17 | string-indexed tables as association lists with inserting `operator[]`; call histories as lists of method calls | invariant by induction over the history |
| C13-C16 | `getKeyProfileMap`, `getKeyTransitionMap` with `std::rotate`/`rotate_copy` as list operations | rotate/index lemma, closed form, then equivariance and permutation; C16 fails for custom tables: proved negation, proved for built-ins (`_partial`) |
| C18-C23 | `HiddenMarkovModel::runViterbi` literally: layers, strict `>`, backtracking loop with re-scan on -1, exception on `at(-1)` | loop invariants by induction over observations/layers; optimality against an independent path-score specification; C22/C23 fail: negation proved, `_partial` otherwise |
| C24 | whole pipeline table construction + Viterbi | score equality along transposed paths |
| C25-C27 | second HMM; exact real instance | all non-constant paths score -inf; product/permutation algebra |
| C28-C33 | CSV reader, printing, discretisation, sequence extraction | round trip over rotation; induction over rows; UB outcomes; C32 strict is UB on every non-empty chromagram (negation proved), lenient semantics proved |
| C34 | MIDI extraction with missing return | UB proved; extraction loop proved against filter-map spec |
| C35-C42 | `main` decision logic as a function of parsed options, file system and outcomes | case analysis; C35, C42 fail: negations proved |
| C43, C44 | Python dataset code | list algebra |
| C45 | the ensembler with its dictionaries, members and runs; the program's output and `float` are parameters | product order, blocks of 24, invariant of the dictionary while mixing |
| C58, C63 | label tables, `parse_label`, `key_name`, `annotate_inline.py` | texts by an inductive definition of words, proved equal to `split`; tables by kernel computation; link to the C++ key names |
| C59 | `feature_scaling` over an ordered field | minimum/maximum lemmas, block arithmetic, permutation invariance |
| C60 | `DatasetCreator.__init__`, `compute_features`, `write` over a folder listing and an annotation folder | invariant of the two dictionaries (same keys in the same order), induction on the listing |
| C61, C62 | `Dataset.__init__` with its regular expressions as a greedy matcher; metadata reader | the matcher finds the last place of the pattern; consistency of the attribute map makes the listing order irrelevant; round trip of `join`/`split`/`strip` |
| C40, C54 | positive tables never reach minus infinity: record `Tame` (closure of finite scores), proved for exact reals and for binary64 including absorption of sums at any length | possible path exists in both stages; lifted to `main` and MIDI input |
| C52 | two runs with different hash-map orders | same layers; last layer compared through the order; ties: witness |
| C53 | the libsndfile read loop, channel mix, plug-in calls | induction over blocks; block arithmetic |
| C46-C49, C56 | genetic optimiser: state monad with dictionaries, counters, an arbitrary stream of random outcomes, exceptions and loops with fuel | weakest preconditions; invariant of the dictionaries; induction over generations |
| C57 | the optimiser's tables as exact rationals | kernel computation on the tables; link to the geometric generator |
| C50, C51, C55 | `ViterbiPath` (scaled Viterbi) and `forward_viterbi` over a linear ordered field | DP optimality by induction |
| C64-C67 | nnls.c: Householder transformations, plane rotations, the active set loops with one counter per loop | control flow proved once for any arithmetic, with the single steps as rules (`Rules`); signs under any monotone rounding; in exact arithmetic scalar products are kept, the positive set is triangular, so the end state satisfies the optimality conditions |
| C68, C69 | the chroma plug-in: `logFreqMatrix`, `dictionaryMatrix`, `SpecialConvolution`, `initialise`, `baseProcess`, `getRemainingFeatures` over any arithmetic, every subscript checked | one pass of loop invariants carrying lengths and a sign predicate `Q`, instantiated with "anything" for C68 and "not negative" under any monotone rounding for C69 |
| C70, C71, C73 | the same in exact arithmetic | loops become finite sums; C66 gives optimality, the triangular shape of the 84 note profiles gives uniqueness; the norms are the maximum, the sum and the Euclidean length; the two tables of window values are compared with raised cosines through a verified approximation of the cosine (Lemmas/Cosine) |
| C72 | `SpecialConvolution` | loop invariant gives a closed form; the specification is the two-index convolution sum; the window is positive with sum one |
| C74 | the plug-in up to the tuned spectrum, in exact arithmetic | one `_exact` lemma per function (magnitudes, threshold, kernel, tuning, interpolation, whitening) against a closed formula built from `magn`, `spread`, `angle`, `lerp`, `mean`, `deviation`; an invariant `Running` over the blocks |
| C75, C76 | the same | homogeneity of every piece of the formula; two runs with the same tuned spectra have the same features because everything after is a function of them |
| C77 | the same | the angle of three weights on the third roots of unity; turning the weights turns the angle |
| C78 | `magnitudes`, `applyRollon` | the removed bins are an initial segment, found as the first bin that fails the test |
| C79 | `logFreqMatrix` | the entries are `spread`; raised cosines vanish outside their support; the skipped bins are outside |
| C80 | `reset` over any arithmetic | every field is either untouched by `baseProcess` or reset to its value after `initialise` |
| C81, C82 | `chordDictionary` (Model/Chordino.lean) | closed form of the loops over kinds and roots (ChordDict); the tables compared entry by entry with musical intervals by kernel evaluation; the factor from the sum of squares |
| C83 | `chordSalience` | closed form of the row (ChordRun), then real powers (ChordExact) |
| C84 | the same | rotation as a permutation of the chords; the factor of a kind does not depend on the root; the permutation carries scores over |
| C85 | `runAll` of the chord plug-in | the first half equals the chroma plug-in's run (ChordWhole); `C50_optimal` on the rows; `report_ok` for the changes |
| C86, C87 | `report` | invariant `Walked`/`Rolled` over the frames: which notes are open, which reports made |
| C88 | `runAll` over any arithmetic | `run_ok`: every loop of the plug-in succeeds |
| C89 | `runAll` on quiet blocks | C76 gives zero chroma, hence equal shares; any change multiplies the score by less than 0.99 |
| C90 | `viterbiPath` and `report` | the buffers hold the greatest scores divided by their sum (ChordBelief, by induction over the frames); Gibbs' inequality with log x <= x - 1 |
| C91 | `runTuning` (Tuning.lean), on the shared `baseProcess` | closed form of a run (`runTuning_exact`) from the invariant `Running`; comparison with C74; the angle of the three shares turns, scales and is bounded by half a semitone |
| C92 | `runTuning` | `Ready` is kept by every block; `reset` gives back the state after `initialise` |
| C93 | `chromaExtract` (Extract.lean), `construct`, `main` | tokens of a printed line; `store_map`: storing commutes with any map of the values that keeps zero; both readers reduce to `storeFeatures` |
| C94 | `chordExtract` | lines split at newlines, each line at its first colon; the reading loop delivers all blocks (C53) |
| C95 | `chromaPlugin` (Pipeline.lean): the plug-in of C68-C80 behind the reader of audio files | C76 on every frame, `store_map` with a constant; bound of a Fourier coefficient by the sum of the magnitudes; C42 for the empty sequence |
| C96 | `chromaPlugin`, `main` | mix-down and Fourier transform are linear, C75 inside the plug-in, equality of the two readers lifted through `main` |
| C97 | `readDict`, `tokens` (DictFile.lean), `chordDictionary` | tokens of a written line by induction over the numbers; the chord loops fail exactly when they read past the numbers, and contain no assertion |
| C98 | `getPluginPath`, `userDict` (DictFile.lean) | `find` against infixes; a character outside the pattern cuts the text; an invariant of the expansion loop for non-termination |
| C99 | `getParameter`, `setParameter` (PluginParams.lean) | what each setting does to each reading; the readings determine the state |
| C100 | `nnls` (Nnls.lean) | the image of the current solution lies in the ball over the right-hand side as diameter: true after each solve, kept by interpolation by convexity |
| C101 | `runAll` (NnlsChroma.lean), `call` (Nnls.lean) | log-frequency weights counted per bin, interpolation and whitening bounded, then C100 for the notes and the window for the fold |
| C102 | `construct`, `main`, `chromaPlugin` | C101 put through the reader; stored values are delivered ones or zeros; C32 and C39 |
| C103 | `construct`, `chromaPlugin`, `runAll` | C70 (fold of the semitone spectrum) put through C94 (reader) column by column |
| C104 | `run` (Detect), `transpose` (PyDataset) | a strictly best local sequence is found in any hash order and moves with the piece (C38); rows by C43, scaling by C59 |
| C105 | `trainingSet`, `testSet` (PyTrainer.lean) | induction over the data sets; scaling is row-wise; augmentation by C43 |
| C106 | `csvReader`, `bothToChroma`, `removeColumn` (ToolsCsv.lean) | the reader's state machine on plain and quoted cells by induction; then C30 |
| C107 | `creatorMain`, `scriptMain` (PyWhole.lean), `trainingSet` | C60 with the exact creator, C61 and C62 through the directory, C105; both programs list the same members |
| C108 | `findDuplicates` (ToolsFiles.lean) | invariant over the listing |
| C109 | `confident` (ToolsFiles.lean) | first dot = last dot when there is one |
| C110 | `sampleDatapoints` (ToolsFiles.lean), `Creator.write` | permutation of the listing; C60 for the splits |
| C111 | `extractKeys` (ToolsFiles.lean) | induction over the rows: nothing is written |
| C112 | `script`, `programRunner` (Script.lean) over `Main.main` and `scriptMain` | C28 for the intermediate file, C31, C36; all members fail on the key line of a MIDI file |
| C113 | the same | C37 for the command line, `detect_spec`, C41 for the printed words |
| C114 | the same with `trainingSet` | C113, `member_moved` (C104), C59, C107 |
| C115 | `chordDictionary` (Chordino.lean) | the closed form of C82; the slash as a function of the bass interval, checked for all intervals and roots |
| C116 | `chromaOutputs`, `runChroma`, `chordOutputs`, `chordFeatures` (Outputs.lean) | C68, C70, C74, C88 for the features; a reader `binOf` of bin names |
| C117 | `shorten`, `mvAll`, `incremental` (ToolsShell.lean) | a folder as a function; induction over the listing for a list of renamings that are apart; numbers with leading zeros are injective and sorted |
| C118 | `trimSplit` (ToolsShell.lean), `Creator.write` | C60 for the splits |
| C119 | `trimAnnotations` (ToolsShell.lean), `Creator.computeFeatures` | induction over the listing; C58 for the labels |
| C120 | `viterbiPath` over any arithmetic with a relative error bound; binary64 | induction over the frames: every row is within `(1 ± ε)^(3m+2)` of the scaled exact row and its entries are zero or bounded below, so that nothing underflows |
| C121 | `detect`, `runViterbi` over binary64 | error of every term and every addition (FP/Error.lean), induction over the path; then C19, C25 relate the path found to the scores |
| C122 | `runScore`, `programBench`, `gaRun` | annotated names have the key in the name (C38), the printed score is the table of C37; the loop of ga.py ends at error 0 only; tables survive the command line (`C122_numbers`) |
| C123 | `grepDataset`, `grepAll` | `grep` patterns as infix and last-character conditions; the originals carry no key in their name (C38 violated) |
| C124 | `batchOptions`, `batchTable` | C35 violated for `-f csv`; with lucky bytes the run equals the one without `-f`; the words of a row stay apart (`C124_row`) |
| C125 | `Leads`, `phraseOk`, `C121_decided` | potentials: for every key a bound on the advantage of being there instead of in the right key; checked for one pass through each phrase from the potentials back to the potentials, then induction over phrases, transposition, and C121 for the rounding |
| C126 | `step`, `stepProfiles`, `stepTransitions`, `start` | inversion of a finished turn into its new generation; verdict `GoodEnough` stated on the bare errors; induction over refused turns; one concrete run for the violation |
| C127 | `mutateProfile`, `mutateTransition` | weakest preconditions with `TenthMoved` and the ratio interval as postconditions |
| C128 | `initialise`, `specialConvolution`, `runAgain` | lengths of the vectors after one and two set-ups; the run up to the assertion succeeds |
| C129 | `detect`, tables | exchange argument: replacing a part of the detected path by another one cannot make it more probable than `10 ^ (2 slack)` (C121); the price of a change is a factor of the transition table; for Krumhansl-Kessler the quotients of the profile entries are at most 2.85 |
| C130 | `detect`, tables | the same exchange with one note; quotients of profile entries by a kernel computation; the violation by the checker `clearPiece`, whose soundness (`clearPiece_sound`) bounds every other key sequence |
| C131 | `detect`, `main`, tables | the phrase checker of C125 with potentials for the exercise and, for `sapp`, with potentials around the wrong key |
| C132 | `detect`, tables | the probability of a path is a product that reversal does not change (symmetric transitions, uniform start); C121 for both directions |
| C133 | `detect`, tables, `main` | a sequence of keys is followed together with a rival that stays in the key (FP/Passage.lean); potentials for sequences that keep away from the key, which every phrase halves (kernel computation in Lemmas/PassageTable.lean); an exchange then improves every sequence that is away at an inner phrase; C121 |
| C134 | copy_bothchroma.sh, remove_duplicates.sh, rename_chromagrams.sh, batch_chromagram.sh (Model/ToolsCopy.lean) | induction over the listing, following one name; renaming through C117's `mvs_renamed`; violations by following the failing `cp` |
| C135 | `Midi`, `main` | an inductive relation between tracks gives the same pitch classes; `main` uses nothing else of the file; percussion through C133 |
| C136 | `main`, `detect`, `runViterbi` | the path of the second model is constant (C25), ends in the printed key, and its score is the greatest of the last layer |
| C137 | `Chromagram`, `main` | an inductive relation between sequences of rows; runs of equal frames collapse (C32), rows are sorted by time (C30) |
| C138 | `detect`, `main` | the probability of a joined path is the product of the two up to one transition, and staying is the most probable one; the counterexample by integer computation and the error bound of C121 |
| C139 | `detect`, `main` | as C138; tonic and dominant have the largest number of the profile sapp in any key |
| C140 | `Midi`, `detect`, `main` | the probability of one key throughout is a product over the notes; C121; clear local keys for the witness |
| C141 | `getChromagramFromCsv`, `getPitchClassSequence`, `main` | frames rotate; one sounding pitch class has no order; C24; clear local keys for the witness |
| C142 | `convertAll` (krn2midi.sh, symbolic2audio.sh) | induction over the listed files; names with equal endings have equal stems |
| C143 | `getMusAudios` | grep as infix relation; induction over the found paths |
| C144 | `extractFullName`, `extractKeySignature` | relational spec of the name and the key; induction over messages and files; sorting is a permutation |
| C145 | `main`, `chooseProfiles`, `chooseTransitions`, `detect` | the maps of both constructors depend on the selected arrays only; congruence of `main` |
| C146 | `Midi`, `main` | pitch classes move; C24; the score is invariant under transposing both keys |
| C147 | `csvLines`, `main` | induction over the fields of a row and over the rows before the malformed one; exchange of rows with the same writes |
| C148 | `framesLoop`, `pushFrame`, `main` | values below two push nothing, induction over the rows; one chord at two levels through the two Viterbi stages in binary64 |
| C149 | `parseArgs`, `readInput`, `printResult`, `main` | each option sets one field of the parsed command line; two runs share input and detection |
| C150 | `framesLoop`, `Midi.getPitchClassSequence`, `main` | both readers yield the pitch classes in keyboard order, induction over the chords; a five-note tune through both readers in binary64 |
| C151 | `chooseProfiles`, `chooseTransitions`, `detect`, `main` | the error bound of C121 for arbitrary stored tables; impossible paths are exactly the ones with score minus infinity |
| C152 | `chooseProfiles`, `chooseTransitions`, `detect`, `main` | C151, and scaled tables scale the probabilities of all sequences of the same length by one number |
| C153 | documented objective of the classifier, `decision`, `Answer`; `trainingSet`, `scriptMain` | the objective is invariant under moving weights, because the rows are closed under transposition; it is strongly convex (Cauchy-Schwarz), so that nearly optimal weights nearly equal their moved versions; then C107 and C114; ties: a row without evidence is answered with C (`C153_no_evidence`) |
| C154 | as C153 | the twelve rows of a transposed piece are the rows of the piece in another order; equal objectives have equal minima by strong convexity |
| C155 | `Library.descriptor`, `Plugin.parameters`, `Plugin.outputs` (PluginLibrary.lean), against the table in Spec/Description | C92, C99 and C116 for the plug-ins' own descriptions; the two descriptions are compared entry by entry |
| C156 | `chordExtract` (Extract.lean), `chordPlugin` (ChordPipeline.lean) | the reading loop gives the plug-in all samples (C53); C85 and C89 for the list; equal chroma give equal chords, and C75 for equal chroma |
| C157 | `chordDictionary`, `runAll` (Chordino.lean) | the closed form of the dictionary for the entries as a list; a permutation of the entries renumbers the chords and carries labels, shares and scores along; with equal shares staying is strictly best |
| C158 | `normaliseChords`, `runAll` (Chordino.lean) | only the profile of "N" depends on the parameter, by the factor `1 + boostN`; two best sequences for two values are compared with each other's scores |
| C159 | `initialise`, `baseProcess`, `getRemainingFeatures` (NnlsChroma.lean) | the state without note profiles and the parameters in question is carried through every step; two runs that agree on it agree on the spectrum, and so on every frame computed from it alone |
| C160 | `chordDictionary`, `report`, `runAll` (Chordino.lean) | a bass note without a name has none in either table, so the numbers and notes of the two dictionaries agree; the two walks over the frames are carried side by side |
| C161 | `runAll`, `getRemainingFeatures` (Chordino.lean) | the argument of C159, carried on through the chordogram |
| C162 | `detect` (Detect.lean), both transition tables | every entry of a table is its first entry divided by a power of 2 or 10, the exponent being a distance between keys; the evidence of C121 then falls off with the sum of the distances, and sums that differ do so by more than rounding can make up |
| C163 | `verifySplits`, `readSplit` (ToolsVerify.lean), `Creator` (PyFiles.lean) | lines against line feeds by induction over the text; distinct names among as many names are all of them |
| C164 | `testFiles` (TestFilesProps.lean), `main` | potentials through the eight notes, in integers (`onceOk`), for all 25 pairs of profiles, then `heard` (C125).  Trusted: the transcription of the note-on messages in test_data/*.mid |
| C165 | `detect` (Detect.lean) | the path is optimal up to rounding (C121); its probability is a product of three parts, of which the outer ones do not change when the passage is replaced |
| C166 | `detect` (Detect.lean), `main` | potentials through the fifteen notes, in integers (`onceOk`, C164); near ties by `decidedOk` (C167) with a thousandth |
| C167 | `detect` (Detect.lean), `prob` | probability of a struck sequence as a power; `decidedOk`: the best of all other sequences note by note, in integers |
| C168 | `detect` (Detect.lean), `main` | number of changes along a route (C129), fit of a passage (C165), distances of keys (C162) for the majority, `decidedOk` (C167) for the witness |
| C169 | `detect` (Detect.lean) | each tune one certificate (`once_steady`, C164), pieces in one key joined (C138), printing (C39), MIDI reading (C34) |

## Disagreements

Places where the unchanged code does not do what the property says.  Each has a proved negation
(`_violated`) and, where it makes sense, a `_partial` theorem for what does hold.

* **C12, C17** Asking a profile or transition object for a name inserts entries into a static map
  (`operator[]`), so the answer about the empty name depends on earlier calls (`C12_empty_name_history`).
* **C16** A custom transition array need not be symmetric in relative and parallel keys: slots 12 and 21
  are shared by different relations.
* **C22** `runViterbi` with no observations reads `m_observations[0]`: undefined behaviour.
* **C23** Running `runViterbi` twice on one object prepends the new sequence to the old one, reversed.
* **C52** With ties, the reported sequence depends on the iteration order of `std::unordered_map`.
* **C28** Export prints with the stream's default six digits, so close timestamps merge on import.
  The theorem assumes that number text round-trips.
* **C32** `getPitchClassSequence` compares every frame with the next one; for the last frame this
  dereferences `end()`.  Lenient semantics: any content of those bytes.
* **C33** A negative magnitude turns into a huge unsigned loop bound.
* **C34** `Midi::getPitchClassSequence` has no `return`.
* **C35** `-f` accepts `wav`, `csv`, `midi` but compares with `.wav`, `.csv`, `.midi`; the variable stays
  uninitialised.
* **C36** A file name without a dot throws `std::out_of_range` that nobody catches.
* **C37** More than 24 custom transitions write past the end of a 24-element array.
* **C38** The C++ score gives 0 to an answer a fifth *below* the truth; dataset.py gives it 0.5.  A file
  name whose last part is no key name makes `-e` read an indeterminate `int`.
* **C42** A missing input file, an unknown extension and a wrong count of custom values exit with 0.
  A MIDI file that cannot be read is not noticed and ends in undefined behaviour.
* **C54** Custom transitions with zeros: the first model can find local keys that no single global key can
  have, and the second model throws (witness: keys always move up a fifth, two observations).
* **C50** `ViterbiPath` only prints a message when sizes disagree and then reads out of range; no frames reads
  `obs[0]` of an empty vector; a first frame impossible in every state is divided by zero and the NaNs make
  the next frame ignore its observation.
* **C55** `forward_viterbi` applies one more transition after the last observation, so the path it prints,
  without its last state, need not be a most likely explanation.
* **C46** Evolving four profiles retains nobody but wants one crossover (`random.choice([])`, IndexError); a
  population of equal names makes the search for a random old member endless; the stored ratios are under
  `exponential2`/`exponential10` while the tables are called `ktg_exponential2`..., so mutating a built-in
  transition multiplies `None` (TypeError).
* **C47** `randrange` may return only zeros; the sum is then 0 and the division raises.
* **C49** `1.0 - abs(sum) > 0.01` is never true for sums above 1.
* **C53** An audio file of more than `INT_MAX` frames overflows the frame counter.
* **C45** The ensembler makes its members once, so the `mixed` flag of a later call is ignored; 24 printed words
  that are not numbers raise ValueError while 23 words are only penalised; mixed names can collide
  (`a` + `a_a` and `a_a` + `a`) and then one table is used for both.
* **C58** `Cb`, `Fb`, `E#`, `B#` are key names for the C++ program but get label -1 in dataset_creator.py; label -1
  is kept, transposed to -12..-1 by the augmentation, and `key_name` prints those as major keys.
* **C59** Newer scalers treat a spread below ten machine epsilons as zero: such a block is only shifted.
* **C60** `a.mid` and `a.csv` in one folder: the features are kept by base name, so one of them is lost, depending on
  the order of `os.listdir`.
* **C61** The pattern is neither anchored at the end nor tied to the exact name: `d_features.pkl.bak` is loaded as `X`,
  data set `a` takes in the files of data set `ab`, a split file called `.txt` replaces `X`, and split `b` of data set
  `a` has the same file names as data set `a-b`.
* **C62** `mixed_profiles.split('=')[1] == "True"` compares `"True\n"`: the flag is always read as False, so the
  trainer's check does not notice data sets made with and without mixing.
* **C63** An unreadable annotation yields a file called `..._Unknown.ext`, for which `-e` reads an indeterminate
  `int`; German `H` is read by annotate_inline.py but not by dataset_creator.py.
* **C72** "Special convolution is as long as the convolvee": the result always has 256 values, and a longer convolvee
  is written past its end.  Harmless in the plug-in, whose spectra all have 256 bins.
* **C75** Where the running deviation is exactly zero the plug-in leaves the value as it is (NNLSChroma.cpp:288), so that a
  spectrum that is level over 37 bins is not whitened and keeps its loudness.  Excluded by hypothesis.
* **C78** The bass noise threshold counts from the third bin, compares the energy two bins ahead of the bin it removes and
  so can remove a bin that holds nearly all the energy, contrary to its description.
* **C82** Where the bass note is the root, it is pushed once for the missing slash and once for itself
  (chromamethods.cpp:455-470), so that the note list has it twice; two kinds of major and two of minor share a label.
* **C86** The final "N" (Chordino.cpp:603-606) is appended even if the last chord is "N" or was reported at the same time.
* **C87** A change on the last frame opens notes that are closed at the same time: their duration is zero.
* **C88** The numbers of a dictionary file are not counted before they are read.
* **C91** The tuning plug-in announces values from 427.47 to 452.89 Hz (Tuning.cpp:109-110, 125-126). The estimate lies
  in the half-open range of half a semitone around 440 Hz, whose upper end 440*2^(1/24) = 452.893 Hz is attained: a
  block with tones of 450 and 455 Hz mixed so that the two bins between A and B flat get the same. `C91_extents_violated`
  is the recording, `C91_range_partial` the range that is kept.
* **C93** A value is printed with six digits and read back. One just below an integer can be printed as that integer,
  and then `floor` gives one more from the CSV file than from the recording: `C93_digits_violated`.
* **C95** For a recording without sound - no Fourier magnitude above two, in particular no sample above 1/8192 - there
  is no pitch class, the program does not notice (src/justkeydding.cc goes on with an empty sequence) and the search for
  the best key sequence reads element 0 of an empty vector: `C95_silence_violated`, `C95_quiet_file_violated`.
* **C97** The token after the chord type is skipped whatever it is. With the comma-separated fields the dictionary that
  comes with the plug-in describes in its comment, this is the first number, 23 remain, and `chordDictionary` reads past
  the end: `C97_commas_violated`. A line of blanks adds a chord type without numbers, with the same end:
  `C97_blank_line_violated`. A line with a single word, such as the carriage return of an empty line in a file written
  under Windows, moves the token iterator past the end: `C97_lone_word_violated`.
* **C98** `$HOME` is replaced in the default path until there is none left, and the replacement is searched again: for a
  home directory with `$HOME` in its name the plug-in never gets started: `C98_home_violated`.
* **C102** Whether a recording contains a pitch class at all is not known in advance; without one the behaviour is
  undefined (C95, C42), and the reading behind the last frame is undefined anyway (C32). What is excluded is the third
  way to undefined behaviour, a value too large for `int`.
* **C105** `model_trainer.py:31-36` compares the metadata of the data sets, but those written with mixed profiles are read
  as written without (C62), so two data sets that differ in this only pass the check and `np.concatenate` raises.
* **C106** (no violation of the claim) `tools/billboard/bothchroma2chroma.py` replaces every file of the folder by its
  columns 2 and 15 on, whatever it holds. A second run leaves the first value of each line and loses the time and the rest.
* **C109** `filter_confident_files.py` compares the names up to the first dot, `dataset_creator.py` up to the last one:
  `a.b.csv` stays because `a.key` exists, and the data-set program then writes nothing at all (C60).
* **C110** `sample_datapoints.py` draws files but prints base names: `a.mid` for the test and `a.csv` for training both
  give `a`.
* **C111** `tools/albrecht/extract_keys.py` opens `<name>.key` for writing but only prints; the files stay empty, and
  `readlines()[0]` of `dataset_creator.py` raises IndexError.
* **C112** The shell script `justkeydding` starts the program with `--chromaonly`, which MIDI input ignores
  (`justkeydding.cc` looks at it for chromagrams only). The key line lands in the `.csv` file, `std::stof` throws in all
  thirty runs, `ensembler.py` replaces each by 24 penalties, the scaler makes -1 of all of them, and the classifier
  answers the same for every MIDI file. A recording that cannot be opened ends the same way with exit status 0. For long
  recordings the six digits of the printed times merge frames (C28), which is why C112_recording asks for times that
  stay ordered.
* **C115** The tables `bassnames` of `chromamethods.cpp` are empty for the intervals 1, 6 and 8. A chord type of the
  user with such a bass note gets the label of the chord over its root, and because the label has no slash the root is
  added to the notes as a second bass note.
* **C117** `shorten_names.sh` copies to the new name and then deletes the old one. If the names are the new ones already
  the copy fails and the file is deleted: a second run deletes the whole data set. Two files with the same stem (`a.csv`,
  `a.mid`) share an annotation, which is moved with the first and missing for the second. The `trim_names.sh` scripts
  overwrite one file with another when two names agree in the part that is kept.
* **C118** `billboard/trim_datasplits.sh` and `trim_datasplits2.sh` write lines `id.csv`, but `dataset_creator.py` looks the
  lines up among names without extension. It ignores every such split with an error message.
* **C123** The last list of `run_all_evaluations.sh` greps for `[\.mid|\.csv]$`, a set of characters. The unannotated
  originals are in it, for which `-e` compares with an indeterminate number, and folders ending in `c`, for which the
  program prints its help: their penalty is always 1, so the search never ends with error 0.
* **C124** `batch_processing.sh` passes `-f csv`. Every run behind a table is undefined (C35).
* **C126** (ga.py:116-125, 148-157): `sum(new_scores) <= sum(scores)` compares with the errors of whichever population was
  kept last. After a change of sides these are the errors of the other kind, so an equally good generation can replace
  one of smaller total error (`C126_replaces_violated`), or be refused although its total is smaller.
* **C128** (NNLSBase.cpp:361-381): `initialise` appends to `sinvalues`, `cosvalues`, `hw`, `m_meanTunings` and
  `m_localTunings` without clearing them, and does so before it checks the number of channels. After a second call `hw`
  has 38 entries and the assertion in `SpecialConvolution` fails (`C128_chroma_again_violated`).
* **C130** With the default profiles (`sapp`) a single C sharp between two C major scales gets the key A major, and the scales
  get A minor (`C130_default_violated`): `sapp` gives C sharp weight 0 in C major and A minor. The same happens with `sapp` for one
  of the modes and with `aarden_essen` for both (`C130_profiles_violated`), and with no other profiles.
* **C131** With the default major profile a five-finger exercise in a major key is heard in the key a fourth above, however often
  it is played (`C131_default_violated`): `sapp` doubles the tonic and the fifth and knows no other
  difference within the scale. In C major `do` and `sol` are doubled, three of the nine notes; in F major `fa` and `do`, four.
* **C134** `copy_bothchroma.sh` runs `rm -R` whether or not `cp` has succeeded: a track folder without `bothchroma.csv` vanishes
  (`C134_lost_violated`), and a second run removes every chromagram of the first (`C134_twice_violated`). `batch_chromagram.sh`
  looks for `*.wav` without regard to case and cuts four characters, so `a.wav` and `a.WAV` share one output
  (`C134_case_violated`).
* **C135** `midi.cc` tests the upper half of the status byte only, so strokes on the percussion channel (status 0x99) count as
  notes (`C135_percussion_violated`).
* **C138** The first model pays for every change of key, and a piece that leaves its key at the end has to come back when it is
  repeated; then another key may explain both halves better.  E E D E C C♯ D E is reported in A minor, and in D minor when played twice
  (`C138_repeat_violated`).
* **C139** The notes of a closing chord get the key that was heard last, and the main key is the one nearest to most local keys; so the
  tonic triad of the main key can count for another key.  G B F♯ F C is reported in G major, and in C major when G B D G is added
  (`C139_closing_violated`).
* **C140** Simultaneous notes are fed to the first model one after the other, and where the key changes within a chord depends on their
  order.  The chords D, G7, A minor are reported in G major when the notes of G7 are listed G B D F, and in C major when they are listed
  D F G B (`C140_order_violated`).
* **C141** `getPitchClassSequence` lists the pitch classes of a row from C to B, whatever the key, so the notes of a transposed chord come
  in another order, and the order matters (C140).  A chroma file with the chords E minor, C7 is reported in C major, and in G major
  instead of D major when it is moved by a whole tone (`C141_chroma_violated`).  For the same reason the hypothesis of C114 that the
  transposed file is read as the transposed sequence of pitch classes is met by MIDI files and by melodies, not by every recording.
* **C142** The scripts convert everything in the folder, including what they made in an earlier run, and `${f: 0:-4}` forgets the
  extension: a second run overwrites the MIDI files by what `hum2mid` makes of them (`C142_twice_violated`), and of `a.krn`, `a.mxl` only
  one recording survives (`C142_stem_violated`).
* **C143** All recordings go to one folder under their own names; with equal names the last one found wins (`C143_name_violated`).
* **C144** `extract_full_name` takes `msgs[-1]` when it meets a copyright notice, also when no track name came before it: the script ends
  with an `IndexError` and the files after that one are not listed (`C144_notice_violated`).
* **C147** Chroma files are not checked.  `std::stof` throws for a field that is no number and nothing catches it
  (`C147_text_violated`); a row with thirteen numbers overwrites A with the last one (`C147_long_violated`); a row with fewer than
  twelve leaves zeros (`C147_short_violated`).  No message is printed in any of these cases.
* **C148** The level of a chroma file matters.  A value pushes its pitch class as many times as its whole part exceeds one.  So a file
  with values below two pushes nothing and has undefined behaviour (`C148_quiet_violated`), every file has such a quiet copy
  (`C148_every_violated`), and a louder copy has more notes and may be in another key (`C148_loud_violated`).
* **C149** `-e` on a file whose name does not end in a key is undefined behaviour or prints nothing, though the file gets a key
  (`C149_name_violated`).  `-c` is ignored for MIDI files: the key is printed instead of a message (`C149_midi_violated`).
* **C150** A note that is struck again counts again in a MIDI file; in a chroma file equal neighbouring frames count once.  The notes
  C, E, E, E, G are in E minor as a MIDI file and in C major as a chroma file (`C150_repeated_violated`).
* **C155** nnls-chroma.n3 describes an older chord plug-in.  Its switch `useHMM` is gone - it reads as off and setting it changes nothing
  (`C155_use_hmm_violated`) - while `boostn`, `usehartesyntax`, `chordnotes` and `loglikelihood` are missing
  (`C155_undescribed_violated`).  The output `tuning` is described as labels without values and always carries one value
  (`C155_tuning_violated`).
* **C163** verify_dataset_splits.sh counts only.  A split file whose last line has no line feed is counted one short although the data-set
  program reads it in full (`C163_last_line_violated`), and a piece that is both in the training and in the test split goes unnoticed if
  another is in neither (`C163_overlap_violated`).  A hidden file among the features is not counted and ends the data-set program
  (`C163_hidden_violated`).
* **C164** The 24 scales of test_data do not all get the keys in their names: with `-M krumhansl_kessler` and `-m aarden_essen`, `sapp` or
  `temperley` the twelve files in major keys get the relative minor key and the score 0.3 (`C164_profiles_violated`).
* **C166** The natural minor scale, played up and down, is heard in the relative major key with the default profiles and fourteen other
  pairs (`C166_natural_minor_violated`, `C166_main_violated`), and in the minor key of its fourth with Krumhansl-Kessler for major and
  Bellman-Budge for minor (`C166_fourth_violated`).
* **C167** Striking every note twice can change the main key: with the default tables C G C F# changes from G major to C major
  (`C167_struck_violated`).
* **C168** The transition tables violate the triangle inequality: from C major to D major by way of G major is cheaper than directly.
  Three broken C major triads and three broken F# major triads are heard in E flat major with the default tables; only one of the
  24 notes has this local key (`C168_tritone_violated`, `C168_main_violated`).
* **C169** With the default tables, on every tonic, "Alle meine Entchen" is heard in the minor key of its second degree, "Mary had a
  little lamb" in the key of its dominant, and the first half of the chorus of "Jingle bells" in the relative minor key
  (`C169_tunes_violated`, `C169_midi_violated`).
