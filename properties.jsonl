{"id": "C01", "title": "Pitch class from an integer", "statement": "Constructing a PitchClass from an integer n with 0<=n<12 gives an object whose getInt() is n and whose getString() is the canonical name of that pitch class; every other integer gives an object that stores no pitch class (its name is empty and its int may not be read).", "quantifier": "every 32-bit int n", "why_tests_cant": "a test covers a handful of ints; the claim is about every int, including negative and huge ones", "anchors": ["src/pitchclass.cc: PitchClass::PitchClass(int), getInt, getString", "include/pitchclass.h: m_pitchClassIntToString"]}
{"id": "C02", "title": "Pitch class names mean what musicians mean", "statement": "A PitchClass built from a string is a defined pitch class exactly when the string, ignoring ASCII case, is a note letter a-g optionally followed by one '#' or one 'b'; its int is then the letter's semitone plus/minus the accidental, modulo 12. Every other string leaves it undefined.", "quantifier": "every byte string", "why_tests_cant": "infinitely many strings; the accepted language must be exactly the 21 spellings in every letter case", "anchors": ["src/pitchclass.cc: PitchClass::PitchClass(std::string), m_pitchClassStringToInt"]}
{"id": "C03", "title": "Pitch class name/number round trip", "statement": "getInt of PitchClass(PitchClass(n).getString()) is n for every valid n, and re-parsing the string a PitchClass reports yields an equal PitchClass and the same string, for every accepted spelling (the name reported is the canonical one, e.g. c# for Db).", "quantifier": "all valid ints and all accepted strings in any letter case", "why_tests_cant": "round trip has to hold for each spelling and letter case", "anchors": ["src/pitchclass.cc", "include/pitchclass.h"]}
{"id": "C04", "title": "Pitch class comparison is a total order on the stored class", "statement": "==, != and < on PitchClass objects agree with the integer pitch class: == is an equivalence (enharmonic spellings are equal), != is its negation, < is a strict total order on classes compatible with ==; so a std::map keyed by PitchClass holds at most 12 entries.", "quantifier": "all pairs/triples of defined PitchClass objects", "why_tests_cant": "order axioms quantify over triples; map key behaviour depends on them for every history", "anchors": ["src/pitchclass.cc: operator==, operator!=, operator<"]}
{"id": "C05", "title": "Key names: letter case is the mode", "statement": "A Key built from a string is defined exactly when the string is one letter A-G (major) or a-g (minor) followed by nothing, '#' or 'b'; its int is the tonic's pitch class plus 0 for major / 12 for minor, and getString() returns the string exactly as given. Every other string leaves it undefined.", "quantifier": "every byte string", "why_tests_cant": "infinitely many strings", "anchors": ["src/key.cc: Key::Key(std::string), m_keyStringToInt, getString"]}
{"id": "C06", "title": "Key from an integer and back", "statement": "For 0<=k<24 Key(k).getInt() is k, Key(Key(k).getString()).getInt() is k, and isValid-range is exactly [0,24) even for negative ints; the all-keys vector lists each of the 24 keys exactly once, in increasing order.", "quantifier": "every 32-bit int k", "why_tests_cant": "negative ints are converted to unsigned before the range check; all ints matter", "anchors": ["src/key.cc: Key::Key(int), getAllKeysVector", "include/key.h: m_keyIntToString"]}
{"id": "C07", "title": "Every defined key is major or minor, never both", "statement": "For every defined Key exactly one of isMajor/isMinor holds, it agrees with the letter case of the string, and the tonic of a key is a pitch class in 0..11.", "quantifier": "all defined Keys, constructed from int or string", "why_tests_cant": "needs all constructors and derived keys", "anchors": ["src/key.cc: isMajor, isMinor, getTonic*"]}
{"id": "C08", "title": "Relative key", "statement": "getRelativeKey of a defined key is defined, switches mode, is an involution, and is the unique key of the other mode with the same diatonic pitch-class set (major scale / natural minor scale).", "quantifier": "all defined keys (however constructed)", "why_tests_cant": "claims about uniqueness among all keys and of the scale sets", "anchors": ["src/key.cc: getRelativeKey"]}
{"id": "C09", "title": "Parallel key", "statement": "getParallelKey of a defined key is defined, keeps the tonic pitch class, switches mode and is an involution; it is the unique key of the other mode with that tonic.", "quantifier": "all defined keys", "why_tests_cant": "uniqueness over all keys", "anchors": ["src/key.cc: getParallelKey"]}
{"id": "C10", "title": "Dominant and subdominant", "statement": "getDominantKey/getSubDominantKey keep the mode, are mutually inverse, move the tonic up a fifth / a fourth, change exactly one note of the scale, and twelve successive dominants visit every key of the mode once and return to the start (circle of fifths).", "quantifier": "all defined keys, any number of iterations n", "why_tests_cant": "orbit statement over all iteration counts", "anchors": ["src/key.cc: getDominantKey, getSubDominantKey"]}
{"id": "C11", "title": "Key relations commute with transposition and are disjoint", "statement": "Relative, parallel, dominant and subdominant commute with transposing the tonic by any number of semitones, and for any key the key itself, its dominant, subdominant, relative and parallel are five distinct keys, so the evaluation classes never overlap.", "quantifier": "all defined keys and every integer transposition", "why_tests_cant": "all keys x all transpositions", "anchors": ["src/key.cc"]}
{"id": "C12", "title": "Key profile selection", "statement": "A KeyProfile built from two names uses the named major and minor tables when both names are known, and reports the two names it uses; if either is unknown it reports empty names and all-zero tables. With name \"custom\" in the four-argument form the given arrays are used unchanged.", "quantifier": "all pairs of strings, all custom arrays, all call histories of the object", "why_tests_cant": "validity depends on previous calls on the same object (map operator[] inserts), so histories matter", "anchors": ["src/keyprofile.cc: constructors, isValid, which, getMajorKeyProfile, getMinorKeyProfile"]}
{"id": "C13", "title": "Emission probabilities are the rotated profile", "statement": "The emission map gives, for every key and pitch class, the profile value at the scale degree (pitch class minus tonic mod 12) of the profile of that key's mode; hence transposing key and pitch class together never changes the emission probability.", "quantifier": "all profile arrays (built-in and custom), all 24 keys, all 12 pitch classes, all transpositions", "why_tests_cant": "custom arrays are arbitrary doubles", "anchors": ["src/keyprofile.cc: getKeyProfileMap"]}
{"id": "C14", "title": "Emission rows are distributions when the profile is", "statement": "Each key's emission row is a permutation of the profile's 12 values (so it has the same sum and the same set of values), and all built-in profiles are non-negative and sum to 1 within 0.002 (within 1e-15 for those the command line offers); so every built-in emission row is a probability distribution up to that tolerance.", "quantifier": "all profile arrays; all built-in names", "why_tests_cant": "permutation claim over arbitrary arrays", "anchors": ["src/keyprofile.cc: tables 65-155, getKeyProfileMap"]}
{"id": "C15", "title": "Transition probabilities depend only on interval and modes", "statement": "The transition probability from key X to key Y is a function of the two modes and of (tonic Y - tonic X) mod 12 only; therefore transposing both keys never changes it; each row of the map has all 24 keys and is a permutation of the 24 given values.", "quantifier": "all transition arrays (built-in and custom), all key pairs, all transpositions", "why_tests_cant": "custom arrays are arbitrary", "anchors": ["src/keytransition.cc: getKeyTransitionMap"]}
{"id": "C16", "title": "Transition slot meaning from minor keys", "statement": "From a minor key, the probability of going to its relative major equals the probability of a major key going to its relative minor, and likewise for parallels (so a transition table says one thing about relative keys and one about parallel keys).", "quantifier": "all transition arrays", "why_tests_cant": "holds for the built-in tables by their internal symmetry but must hold for arbitrary custom tables", "anchors": ["src/keytransition.cc: getKeyTransitionMap 103-166"]}
{"id": "C17", "title": "Key transition selection", "statement": "A KeyTransition built from a known name uses that table and reports the name; an unknown name reports an empty name and an all-zero table; \"custom\" uses the given array. Built-in tables linear, exponential2, exponential10, zero, symmetrical have 24 non-negative entries that sum to exactly 1 before rounding.", "quantifier": "all names, all custom arrays, all call histories", "why_tests_cant": "history dependence through map operator[]", "anchors": ["src/keytransition.cc: constructors, isValid, which, getKeyTransitionArray, tables 52-89"]}
{"id": "C18", "title": "Key detection returns one key per observation", "statement": "On a non-empty observation sequence for which a path of non-zero probability exists, runViterbi terminates, the key sequence has exactly one defined key per observation, every key in it is one of the model's states, and the status becomes HMM_VITERBI_READY.", "quantifier": "all observation sequences of any length, all probability maps, any iteration order of the hash map", "why_tests_cant": "unbounded lengths, arbitrary tables and hash orders", "anchors": ["src/hiddenmarkovmodel.cc: runViterbi, getKeySequence, getStatus"]}
{"id": "C19", "title": "Key detection is optimal", "statement": "The returned key sequence maximises, over all 24^n key sequences, the model score (initial * emission * product of transition*emission): no other key sequence has a larger probability. In floating point: no other sequence has a larger left-to-right summed log score.", "quantifier": "all observation sequences, all non-negative tables, all competing key sequences", "why_tests_cant": "exponentially many competitors, unbounded length", "anchors": ["src/hiddenmarkovmodel.cc: runViterbi 183-248"]}
{"id": "C20", "title": "Reported probability vector", "statement": "After runViterbi, getProbabilities() has 24 entries and entry k is the best score of any key sequence that ends in key k; getMaximumProbability() is the score of the returned sequence and the maximum of those entries.", "quantifier": "all observation sequences, all tables, any hash order", "why_tests_cant": "as C19", "anchors": ["src/hiddenmarkovmodel.cc: runViterbi 213-240, getProbabilities, getMaximumProbability"]}
{"id": "C21", "title": "When key detection throws", "statement": "runViterbi on a non-empty sequence terminates by the std::out_of_range exception exactly when every key sequence has probability zero; otherwise it never throws.", "quantifier": "all observation sequences and tables", "why_tests_cant": "all-zero paths arise only for particular combinations of tables and observations", "anchors": ["src/hiddenmarkovmodel.cc: runViterbi 228-240 lastLayer.at"]}
{"id": "C22", "title": "Key detection needs at least one observation", "statement": "runViterbi is safe (no undefined behaviour) for every observation sequence, including an empty one.", "quantifier": "all observation sequences including empty", "why_tests_cant": "the empty input is UB rather than an observable failure; tests cannot observe absence of UB", "anchors": ["src/hiddenmarkovmodel.cc: runViterbi 191-197"]}
{"id": "C23", "title": "Re-running key detection is idempotent", "statement": "Calling runViterbi again on the same object leaves the key sequence unchanged.", "quantifier": "all observation sequences, any number of runs", "why_tests_cant": "number of runs unbounded", "anchors": ["src/hiddenmarkovmodel.cc: runViterbi, m_keySequence"]}
{"id": "C24", "title": "Transposition equivariance of key detection", "statement": "If all observations are transposed by t semitones, the set of optimal key sequences is transposed by t and the maximal probability is unchanged; when the optimum is unique the returned sequence is exactly the transposed sequence.", "quantifier": "all pitch-class sequences, all t, all profiles and transition arrays", "why_tests_cant": "music of any length and key", "anchors": ["src/hiddenmarkovmodel.cc", "src/keyprofile.cc", "src/keytransition.cc"]}
{"id": "C25", "title": "Second stage yields one global key", "statement": "With the \"zero\" transition table (stay with probability 1), the second model's key sequence is constant: the same key repeated once per observation, and it is the key maximising the product of emissions; so the first element is the global key.", "quantifier": "all key-observation sequences of any length, all emission arrays with positive entries", "why_tests_cant": "unbounded length", "anchors": ["src/justkeydding.cc 228-243", "src/hiddenmarkovmodel.cc", "src/keytransition.cc: zero table"]}
{"id": "C26", "title": "Global key ignores order of local keys", "statement": "In exact arithmetic the second stage's key scores depend only on how many times each local key occurs, not on the order in which they occur.", "quantifier": "all permutations of all local key sequences", "why_tests_cant": "factorially many permutations", "anchors": ["src/justkeydding.cc 228-243"]}
{"id": "C27", "title": "Scaling invariance", "statement": "In exact arithmetic, multiplying every transition by a positive constant, and/or every emission by a positive constant, does not change which key sequence is returned; so profiles/transition tables need not be normalised.", "quantifier": "all constants, tables, observation sequences", "why_tests_cant": "real-valued constants and unbounded sequences", "anchors": ["src/hiddenmarkovmodel.cc"]}
{"id": "C28", "title": "Chromagram export/import round trip", "statement": "A chromagram printed with --chromaonly and read back as CSV is the same chromagram (columns restored to the same pitch classes), whenever number formatting round-trips.", "quantifier": "all chromagrams with 12 pitch classes per frame, any number of frames", "why_tests_cant": "unbounded data; depends on rotation used by two different functions", "anchors": ["src/chromagram.cc: printOriginalChromagram, getChromagramFromCsv"]}
{"id": "C29", "title": "Chromagram status life cycle", "statement": "The status of a Chromagram after construction is exactly one of INPUTFILE_ERROR, NNLS_ERROR or DISCRETE_READY, and DISCRETE_READY is reached iff the original chromagram was loaded; getPitchClassSequence yields an empty sequence unless DISCRETE_READY.", "quantifier": "all files and plugin outcomes", "why_tests_cant": "all file contents", "anchors": ["src/chromagram.cc: constructor, getStatus, discretizeChromagram"]}
{"id": "C30", "title": "CSV columns map to pitch classes starting at A", "statement": "In every CSV row `t,v1,...,v12` value v1 is pitch class A, v2 is A#/Bb, ... v12 is G#; each row contributes one frame with those 12 values, and rows with distinct timestamps do not interfere; frames come out in increasing time order whatever the row order.", "quantifier": "all CSV files (any number of rows, any order)", "why_tests_cant": "unbounded files and orders", "anchors": ["src/chromagram.cc: getChromagramFromCsv 105-136"]}
{"id": "C31", "title": "Discretisation is floor", "statement": "The discretised chromagram has the same timestamps and pitch classes as the original and each value is the floor of the original value, so never exceeds it and is less than one below.", "quantifier": "all chromagrams", "why_tests_cant": "all real values", "anchors": ["src/chromagram.cc: discretizeChromagram 232-243"]}
{"id": "C32", "title": "Pitch-class sequence extraction", "statement": "getPitchClassSequence is memory-safe and produces the frames' pitch classes in time order, ascending within a frame, each repeated (value minus one when positive) times, with runs of equal consecutive frames collapsed to one.", "quantifier": "all discrete chromagrams with non-negative values", "why_tests_cant": "out-of-bounds reads at end() are invisible to tests most of the time", "anchors": ["src/chromagram.cc: getPitchClassSequence 46-64"]}
{"id": "C33", "title": "Negative magnitudes", "statement": "A negative chromagram magnitude contributes no pitch classes.", "quantifier": "all chromagrams containing a negative value", "why_tests_cant": "the loop counter wraps: the run never ends within a test's time-out", "anchors": ["src/chromagram.cc: getPitchClassSequence 55-60"]}
{"id": "C34", "title": "MIDI note extraction", "statement": "For a MIDI file, getPitchClassSequence returns pitch mod 12 of every note-on event with non-zero velocity, in event order.", "quantifier": "all event lists", "why_tests_cant": "a missing return statement is UB; tests may pass by luck", "anchors": ["src/midi.cc: getPitchClassSequence 39-55"]}
{"id": "C35", "title": "-f selects the input format", "statement": "Passing -f wav|csv|midi makes the program treat the file as that format regardless of its extension.", "quantifier": "all accepted -f values and all file names", "why_tests_cant": "an uninitialised variable can happen to have the right value in a test", "anchors": ["src/justkeydding.cc 62-72, 301-306"]}
{"id": "C36", "title": "Extension detection", "statement": "Without -f the format is decided by the text after the last dot, ignoring case: wav, csv, mid/midi; any other extension gives an error message and exit status 0; a name without a dot is rejected gracefully.", "quantifier": "all file names", "why_tests_cant": "infinitely many names", "anchors": ["src/justkeydding.cc 73-93"]}
{"id": "C37", "title": "Custom profile and transition lists", "statement": "Custom key profile strings are accepted iff they hold exactly 24 numbers, the first 12 becoming the major and the last 12 the minor profile; custom transitions are accepted iff exactly 24 numbers; other lengths are rejected with a message and no memory corruption.", "quantifier": "all lists of numbers of any length", "why_tests_cant": "lengths unbounded; overflow of a fixed array is invisible to tests", "anchors": ["src/justkeydding.cc 94-141"]}
{"id": "C38", "title": "Evaluation score", "statement": "With -e the printed score is 1 for the right key, 0.5 for a fifth, 0.3 relative, 0.2 parallel, 0 otherwise - the MIREX weighting; the C++ score and the Python weighted score agree on all key pairs.", "quantifier": "all pairs of keys, all file names", "why_tests_cant": "the two implementations live in different languages; agreement over all pairs", "anchors": ["src/justkeydding.cc 251-271", "dataset.py: compare_keys, weighted_score"]}
{"id": "C39", "title": "Printed key is unambiguous", "statement": "The default output line determines the key: two different keys never print the same line, and the line is '<Tonic>\\tmajor|minor' with the tonic spelled with an upper-case letter; the dataset label parser maps it back to the same key index.", "quantifier": "all keys", "why_tests_cant": "injectivity over all pairs across two programs", "anchors": ["src/justkeydding.cc 272-283", "dataset_creator.py: parse_label"]}
{"id": "C40", "title": "With default options every non-empty input yields a key", "statement": "With the default options, and with every built-in profile and transition table that -M, -m and -t accept, every non-empty pitch-class sequence of any length yields a key in both stages; the program never throws.", "quantifier": "all non-empty pitch-class sequences of any length", "why_tests_cant": "unbounded sequences", "anchors": ["src/justkeydding.cc 191-243", "src/keyprofile.cc: sapp table", "src/keytransition.cc: exponential10"]}
{"id": "C41", "title": "-p prints one score per key", "statement": "With -p exactly 24 scores are printed in key order C..B, c..b, and -p takes precedence over -e.", "quantifier": "all inputs", "why_tests_cant": "all inputs", "anchors": ["src/justkeydding.cc 243-250"]}
{"id": "C42", "title": "Exit codes report failure", "statement": "The process exit status is non-zero whenever no key was produced.", "quantifier": "all command lines and inputs", "why_tests_cant": "all error branches x inputs", "anchors": ["src/justkeydding.cc 38-285"]}
{"id": "C43", "title": "Dataset transposition", "statement": "Transposing a 24-key feature vector by t semitones rotates major and minor halves independently, composes additively modulo 12, is inverted by 12-t, preserves the multiset of values, and commutes with the key label shift used for augmentation.", "quantifier": "all vectors, all t", "why_tests_cant": "all real vectors", "anchors": ["dataset.py: transpose, data_augmentation"]}
{"id": "C44", "title": "Weighted score statistics", "statement": "weighted_score over any list of label/prediction pairs lies in [0,1], is 1 iff all predictions are right, and each pair falls in exactly one category.", "quantifier": "all lists of label pairs", "why_tests_cant": "unbounded lists", "anchors": ["dataset.py: compare_keys, weighted_score"]}
{"id": "C45", "title": "Ensemble feature vector length", "statement": "The ensemble feature vector has exactly 24 entries per ensemble member (major profile x minor profile x transition), in product order, even when a member's run fails.", "quantifier": "all ensemble configurations and failure patterns", "why_tests_cant": "combinatorial failure patterns", "anchors": ["optimizer/ensembler.py"]}
{"id": "C46", "title": "Evolution step keeps the population size", "statement": "One generation of the evolver returns a population of the same size, without repetitions, whose members are stored well-formed tables, each from the old population or new, and leaves existing tables alone; for every population and every sequence of random outcomes.", "quantifier": "all populations, all dictionaries and all sequences of random outcomes", "why_tests_cant": "randomised code: every schedule of random outcomes", "anchors": ["optimizer/evolver.py: evolve_key_profiles, evolve_key_transitions"]}
{"id": "C47", "title": "Random tables are distributions", "statement": "Whatever is drawn, a generated profile has non-negative major and minor halves that each sum to 1, a generated transition table is a distribution over the 24 keys, a geometric one is constant on the key groups and falls by the ratio from each group to the next, and the names are new.", "quantifier": "all random outcomes, ratios and ranges", "why_tests_cant": "randomised", "anchors": ["optimizer/generator.py"]}
{"id": "C48", "title": "Error monotonicity of the genetic search", "statement": "The lowest error reported by ga_runner never increases from one generation to the next, the search ends only when it is 0, and the error of a pair is between 0 and the number of files and 0 iff every file scores 1.", "quantifier": "all populations, evaluations and random outcomes, any number of generations", "why_tests_cant": "randomised, unbounded generations", "anchors": ["ga.py: ga_runner 45-174", "optimizer/evaluator.py: evaluate 33-42"]}
{"id": "C49", "title": "insert_new warns about unnormalised tables", "statement": "Inserting a profile or transition table whose sum is off by more than 1% prints a warning.", "quantifier": "all arrays", "why_tests_cant": "all real arrays", "anchors": ["optimizer/key_profiles.py: insert_new", "optimizer/key_transitions.py: insert_new"]}
{"id": "C50", "title": "Chord Viterbi returns an optimal path", "statement": "NNLS Chroma's ViterbiPath returns one state per frame and the path maximises initial * observation * transition products.", "quantifier": "all init/trans/observation tables with non-zero scale", "why_tests_cant": "exponentially many paths", "anchors": ["nnls-chroma-1.1/viterbi.cpp: ViterbiPath"]}
{"id": "C51", "title": "Example forward_viterbi", "statement": "The stand-alone forward_viterbi reports as best path probability the maximum over state paths and as total probability the sum over state paths of the path probability.", "quantifier": "all state sets, tables and observation sequences", "why_tests_cant": "exponentially many paths", "anchors": ["src/ViterbiSTL.cc: forward_viterbi"]}
{"id": "C52", "title": "Result does not depend on hash iteration order", "statement": "Two runs of runViterbi on the same model that visit the last layer's std::unordered_map in different orders give the same outcome, probability vector, maximum and key sequence.", "quantifier": "all models, all observation sequences, all pairs of iteration orders", "why_tests_cant": "a test sees the one iteration order of its standard library", "anchors": ["src/hiddenmarkovmodel.cc: runViterbi 213-240"]}
{"id": "C53", "title": "Audio reader feeds every sample once and in order", "statement": "For every audio file the reader hands the plug-in consecutive blocks that together hold each sample frame, averaged over the channels, exactly once and in order (the last block zero-padded), and stores every feature the plug-in returns under its time.", "quantifier": "all audio files: any number of frames and channels, any block size, any plug-in", "why_tests_cant": "unbounded streams and the behaviour at block boundaries", "anchors": ["src/chromagram.cc: getChromagramFromAudio 138-230"]}
{"id": "C54", "title": "Second stage succeeds whenever the first does", "statement": "If the first model finds a sequence of local keys then the second model finds a global key for it, so detection fails only when the first model fails.", "quantifier": "all configurations, including custom transition arrays with zeros, and all pitch-class sequences", "why_tests_cant": "zeros in custom arrays combine with the first model's choice of local keys", "anchors": ["src/justkeydding.cc 216-243", "src/hiddenmarkovmodel.cc: runViterbi 183-248"]}
{"id": "C55", "title": "Example Viterbi path is the most likely explanation", "statement": "The Viterbi path printed by the stand-alone example, without its last state, is a most likely hidden state sequence for the observations.", "quantifier": "all state sets, tables of probabilities and observation sequences", "why_tests_cant": "exponentially many paths; the bundled example happens to agree", "anchors": ["src/ViterbiSTL.cc: forward_viterbi 140-181"]}
{"id": "C56", "title": "The reported pair is the one with the reported error", "statement": "After any number of generations the pair reported as best names two stored tables, the lowest error is the error of exactly that pair, and both populations keep their sizes; the initial selection picks a pair no other initial pair beats.", "quantifier": "all populations, scoring programs, random outcomes and numbers of generations", "why_tests_cant": "randomised, stateful, unbounded: tables are flushed and kept in every generation", "anchors": ["ga.py: ga_runner 45-174", "optimizer/key_profiles.py: flush, keep", "optimizer/key_transitions.py: flush, keep"]}
{"id": "C57", "title": "Optimiser and program use the same tables", "statement": "Every built-in profile and ratio transition of the program has the same numbers in the optimiser; a table called exponentialN is the geometric table of ratio N; all the optimiser's tables are well formed.", "quantifier": "all built-in tables, every entry", "why_tests_cant": "tests compare a few entries; the relation to the generator's formula is algebraic", "anchors": ["optimizer/key_profiles.py 5-125", "optimizer/key_transitions.py 5-94", "src/keyprofile.cc 66-153", "src/keytransition.cc 53-89"]}
{"id": "C58", "title": "Labels and names agree", "statement": "The label read from an annotation is the key it names; the name the ensemble program prints for a label is read back as that label and says the same key as the C++ program's line; no text that names no key is ever reported as a key.", "quantifier": "all annotation texts, all labels", "why_tests_cant": "texts are unbounded; three tables in two languages have to agree", "anchors": ["dataset_creator.py: keys_single_letter, keys_duple, parse_label 48-81, 148-161", "justkeydding_ensemble.py: key_name 8-17", "dataset.py: transpose 62-74"]}
{"id": "C59", "title": "Feature scaling", "statement": "Scaling stretches every block of 24 scores by itself linearly onto [-1, 1]: ends reached, order and ties kept, a constant block all -1; it does not depend on the level or unit of the scores and commutes with transposition, so scaling before augmentation equals scaling after it.", "quantifier": "all score matrices", "why_tests_cant": "all real matrices; algebraic laws", "anchors": ["dataset.py: feature_scaling 130-136, transpose 62-74", "model_trainer.py 48-55"]}
{"id": "C60", "title": "Data-set rows and labels belong together", "statement": "In the files written for a data set, row i of the features and entry i of the labels belong to the same piece; when the base names differ there is one row per file in listing order; if any annotation is missing nothing is written; a split is written with one row and label per line, in the order of its lines, or not at all.", "quantifier": "all folders, annotation folders, evaluation results and split files", "why_tests_cant": "alignment over all folders, repeated names and missing files", "anchors": ["dataset_creator.py: __init__ 83-146, compute_features 166-187, write 189-242"]}
{"id": "C61", "title": "Loading a data set gives back what was written", "statement": "Loading a written data set by its name yields exactly the feature and label arrays that were written, the whole and every split under its own attribute, whatever the order of the directory listing and whatever other files are there.", "quantifier": "all data sets, split names and directory listings", "why_tests_cant": "the file names are matched by an unanchored greedy pattern; names and listing orders are unbounded", "anchors": ["dataset.py: Dataset.__init__ 9-60", "dataset_creator.py: write 189-242"]}
{"id": "C62", "title": "Ensemble metadata round trip", "statement": "The ensemble description written beside a data set is read back unchanged: the key profiles, the key transitions and the mixed-profiles flag; so the trainer can reject data sets made with different ensembles.", "quantifier": "all lists of names and both flags", "why_tests_cant": "round trip over all lists of names", "anchors": ["dataset_creator.py: write 203-205", "dataset.py: Dataset.__init__ 24-41", "model_trainer.py"]}
{"id": "C63", "title": "Annotated file names", "statement": "For every annotated file the copy made by annotate_inline has a name from which the program's evaluation mode reads exactly the annotated key, so the printed score is the weight of the answer against the annotation.", "quantifier": "all file names, annotation texts and answers", "why_tests_cant": "file names and annotations are unbounded; two programs in two languages have to agree", "anchors": ["tools/annotate_inline.py", "src/justkeydding.cc 251-271", "src/key.cc"]}
{"id": "C64", "title": "The least squares solver stops and stays inside its arrays", "statement": "For every matrix and right-hand side - also with infinities and not-a-number - nnls comes to an end, uses no subscript outside its arrays and no unassigned variable, and reports mode 1 or 3; non-positive dimensions give mode 2 and nothing is touched.", "quantifier": "all dimensions, matrices, right-hand sides and initial contents of the work arrays, any arithmetic with IEEE-like comparisons", "why_tests_cant": "goto-driven nested loops whose end depends on the data; rounding and NaN cannot be enumerated", "anchors": ["nnls-chroma-1.1/nnls.c 33-587"]}
{"id": "C65", "title": "Note activations are never negative", "statement": "The coefficients nnls returns are not negative, also with rounding errors and also when it gives up for too many iterations.", "quantifier": "all problems, every monotone symmetric rounding without overflow", "why_tests_cant": "depends on the order of roundings in every step", "anchors": ["nnls-chroma-1.1/nnls.c 201-587"]}
{"id": "C66", "title": "Success means a best non-negative fit", "statement": "When nnls reports success, no non-negative combination of the note profiles comes closer to the spectrum than the one it returns.", "quantifier": "all matrices and right-hand sides (exact arithmetic)", "why_tests_cant": "a minimum over infinitely many vectors", "anchors": ["nnls-chroma-1.1/nnls.c 201-587"]}
{"id": "C67", "title": "Dual vector, residual norm and rotated data", "statement": "On success w is the gradient A^T(b-Ax), nowhere positive and zero where x is positive, and rnorm is the distance of Ax from b; the matrix and vector left behind pose the same problem as those handed in.", "quantifier": "all matrices and right-hand sides (exact arithmetic)", "why_tests_cant": "identities over the reals after arbitrarily many rotations", "anchors": ["nnls-chroma-1.1/nnls.c 201-587"]}
{"id": "C68", "title": "The chroma plug-in runs through", "statement": "For every parameter setting, sampling rate, block size from four up, recording and content of uninitialised memory, the plug-in uses no subscript outside its arrays, no assertion fails, and each of its five outputs has one vector of the documented size for every block, with its timestamp.", "quantifier": "all parameters, rates, block sizes, numbers of blocks and block contents; any arithmetic with IEEE-like comparisons", "why_tests_cant": "array bounds over all data-dependent tunings and unbounded recordings", "anchors": ["nnls-chroma-1.1/NNLSBase.cpp 351-532", "nnls-chroma-1.1/NNLSChroma.cpp 186-481", "nnls-chroma-1.1/chromamethods.cpp 46-207"]}
{"id": "C69", "title": "No negative chroma", "statement": "No value of any output of the plug-in is negative and its message about a negative value is never printed, also with rounding errors.", "quantifier": "all recordings and parameters, every monotone symmetric rounding without overflow", "why_tests_cant": "signs have to survive every rounding of every step", "anchors": ["nnls-chroma-1.1/NNLSChroma.cpp 219-481", "nnls-chroma-1.1/NNLSBase.cpp 441-532"]}
{"id": "C70", "title": "What a chroma value is", "statement": "Entry k of the chroma is the sum over the notes of pitch class k + 9 (the first is A) of the semitone spectrum weighted with the treble window; the bass chroma uses the bass window; the combined vector is bass then treble. The treble window is to six decimals a raised cosine over the 84 notes, the bass window one over the lowest 37 1/3 and zero above. Without transcription a note is its own bin and half of either neighbour.", "quantifier": "all recordings and parameters without normalisation", "why_tests_cant": "index arithmetic over all notes and frames; identities over the reals", "anchors": ["nnls-chroma-1.1/NNLSChroma.cpp 338-411", "nnls-chroma-1.1/chromamethods.h 35-36"]}
{"id": "C71", "title": "The transcription is the best explanation", "statement": "Unless the solver gives up, the semitone spectrum is the best non-negative explanation of the tuned spectrum by note profiles among the notes present, and a spectrum that is a mixture of those profiles gives back exactly its amounts.", "quantifier": "all recordings, all spectral shapes, all competing explanations", "why_tests_cant": "a minimum over infinitely many candidates; uniqueness needs independence of the 84 profiles", "anchors": ["nnls-chroma-1.1/NNLSChroma.cpp 372-406", "nnls-chroma-1.1/chromamethods.cpp 168-207", "nnls-chroma-1.1/nnls.c"]}
{"id": "C72", "title": "Running mean", "statement": "SpecialConvolution is as long as the convolvee, holds the usual convolution where it is valid and repeats its ends; with the plug-in's window it is a weighted mean that never leaves the range of the values.", "quantifier": "all spectra and odd kernels", "why_tests_cant": "the padding and offsets for all positions; array bounds for all lengths", "anchors": ["nnls-chroma-1.1/chromamethods.cpp 38-72", "nnls-chroma-1.1/NNLSBase.cpp 368-382"]}
{"id": "C73", "title": "Chroma normalisation", "statement": "With a normalisation chosen, every chroma vector is the unnormalised one divided by a positive number, and unless it is zero its largest entry, sum or Euclidean length is one; the combined vector keeps the balance of bass and treble.", "quantifier": "all recordings and the three normalisations", "why_tests_cant": "identities over all real vectors", "anchors": ["nnls-chroma-1.1/NNLSChroma.cpp 413-469"]}
{"id": "C74", "title": "What the tuned spectrum is", "statement": "In exact arithmetic the tuned log-frequency spectrum of every block is a closed formula of the Fourier coefficients: magnitudes limited to the block size, bass below the threshold and silent blocks removed, spread over 256 bins by raised cosines, read as much higher as the recording is sharp by linear interpolation, and whitened by the running mean and deviation.", "quantifier": "all recordings, rates, block sizes and parameters", "why_tests_cant": "an equation between the whole stateful program and a formula over the reals, for recordings of any length", "anchors": ["nnls-chroma-1.1/NNLSBase.cpp 351-532", "nnls-chroma-1.1/NNLSChroma.cpp 219-300", "nnls-chroma-1.1/chromamethods.cpp 38-166"]}
{"id": "C75", "title": "The level of a recording does not matter", "statement": "With the default whitening a recording played louder or softer gives exactly the same tuned spectrum, notes and chroma, as long as no magnitude is limited, no block crosses the threshold of silence and no tuned spectrum is level over a whole neighbourhood; with other whitenings w every bin is multiplied by c to the power 1 - w.", "quantifier": "all recordings, all factors", "why_tests_cant": "a relation between two executions over the reals, through tuning, whitening and the solver", "anchors": ["nnls-chroma-1.1/NNLSBase.cpp 441-532", "nnls-chroma-1.1/NNLSChroma.cpp 219-411"]}
{"id": "C76", "title": "Silent blocks yield zeros", "statement": "A block whose Fourier magnitudes all stay below two yields nothing but zeros in all five outputs, whatever comes before or after it and whatever the parameters.", "quantifier": "all recordings, positions and parameters", "why_tests_cant": "the neighbours enter the tuning of every block; all block contents", "anchors": ["nnls-chroma-1.1/NNLSBase.cpp 470-475", "nnls-chroma-1.1/NNLSChroma.cpp 257-469"]}
{"id": "C77", "title": "Tuning estimate", "statement": "The spectrum is read higher by at most a sixth of a semitone when most of the recording lies in the bins at the semitones, by a sixth to a half when most lies a third of a semitone above, and lower likewise; a recording a third of a semitone sharper gets a tuning higher by exactly that and the same tuned spectra before whitening.", "quantifier": "all recordings; all sequences of spectra", "why_tests_cant": "angles of sums over all blocks; relations between two recordings", "anchors": ["nnls-chroma-1.1/NNLSBase.cpp 493-517", "nnls-chroma-1.1/NNLSChroma.cpp 225-277"]}
{"id": "C78", "title": "Bass noise threshold", "statement": "All bins below the first bin whose cumulative energy exceeds the given percentage of the total are set to zero; a threshold of zero changes nothing.", "quantifier": "all blocks and thresholds", "why_tests_cant": "sums over all real spectra", "anchors": ["nnls-chroma-1.1/NNLSBase.cpp 444-468", "nnls-chroma-1.1/NNLSBase.cpp 152-163"]}
{"id": "C79", "title": "The mapping to log frequency", "statement": "Log-frequency bin l stands for MIDI pitch 20 + l/3; the mapping has no negative entry, sends a Fourier bin only to bins less than a third of a semitone from a frequency less than one Fourier bin away, and sends every Fourier bin in the range somewhere.", "quantifier": "all sampling rates, block sizes and bins", "why_tests_cant": "real-valued logarithms and cosines for all rates and sizes; the shortcut that skips far bins must lose nothing", "anchors": ["nnls-chroma-1.1/chromamethods.cpp 74-166"]}
{"id": "C80", "title": "Reset forgets", "statement": "After reset the plug-in gives for a second recording the features a fresh plug-in would give, whatever it heard before.", "quantifier": "all pairs of recordings, all parameters, any arithmetic with IEEE-like comparisons", "why_tests_cant": "state carried over between unbounded runs", "anchors": ["nnls-chroma-1.1/NNLSBase.cpp 425-439", "nnls-chroma-1.1/NNLSChroma.cpp 201-205"]}
{"id": "C81", "title": "The chord dictionary", "statement": "The built-in dictionary has 217 chords: each of 18 kinds on each of the twelve roots, and N. Every chord's profile is, up to a positive factor that makes its mean square 1, one on its notes in the treble, one on the bass note and a half on the other notes in the bass. N is flat, half as strong in the bass, and stronger by the boost.", "quantifier": "all boosts; all chords, bins and both label syntaxes", "why_tests_cant": "the factors are square roots of real sums; the profiles are stated against the musical intervals, for every chord and bin", "anchors": ["nnls-chroma-1.1/chromamethods.cpp 314-340", "nnls-chroma-1.1/chromamethods.cpp 342-535"]}
{"id": "C82", "title": "Labels and notes of chords", "statement": "Every chord is labelled by its root, the sign of its kind and the bass note if it is not the root, by its name or, in Harte's syntax, by its degree; its notes are the bass note in a low octave and every note of the chord once in a fixed higher octave.", "quantifier": "all 216 chords, both syntaxes, any arithmetic that tells 0, 1 and 0.5 apart", "why_tests_cant": "for every arithmetic; the labels are stated by musical meaning, not as a list", "anchors": ["nnls-chroma-1.1/chromamethods.cpp 272-312", "nnls-chroma-1.1/chromamethods.cpp 342-535"]}
{"id": "C83", "title": "Shares of chords in a frame", "statement": "The shares of the chords in a frame are positive and add up to one, and the ratio of two shares is 1.3 to the power of the difference of their fits: the scalar product of profile and chroma, 70 per cent of it for the last chord, limited to the range from 0 to 200.", "quantifier": "all dictionaries and all chroma vectors", "why_tests_cant": "real exponentials for all inputs", "anchors": ["nnls-chroma-1.1/Chordino.cpp 489-522"]}
{"id": "C84", "title": "Transposed music, transposed chords", "statement": "If the chroma are rotated by any number of semitones, every chord's share goes to the chord of the same kind that many semitones higher and that of N stays, and a best sequence of chords, transposed, is a best sequence of the transposed music.", "quantifier": "all chroma, transpositions, boosts and numbers of frames", "why_tests_cant": "a relation between two executions for all real inputs", "anchors": ["nnls-chroma-1.1/Chordino.cpp 489-545", "nnls-chroma-1.1/chromamethods.cpp 440-535"]}
{"id": "C85", "title": "The best sequence of chords", "statement": "The chords reported are those of a sequence of the highest score - shares of its chords times 0.99 for every chord that stays and 0.01 divided by 216 for every change - among all sequences that begin with N, computed from the chroma that the chroma plug-in returns for the recording.", "quantifier": "all recordings, parameters, sampling rates and block sizes", "why_tests_cant": "optimality over exponentially many sequences; equality of two plug-ins' chroma for every recording", "anchors": ["nnls-chroma-1.1/Chordino.cpp 270-622", "nnls-chroma-1.1/viterbi.cpp 19-84"]}
{"id": "C86", "title": "The chord reports", "statement": "At the time of every block but the last, the last label reported is that of the block's chord in the best sequence; the first report is N at the first block and the last is N at the last block. Consecutive reports differ.", "quantifier": "all recordings with increasing times", "why_tests_cant": "all recordings of any length", "anchors": ["nnls-chroma-1.1/Chordino.cpp 549-588", "nnls-chroma-1.1/Chordino.cpp 603-622"]}
{"id": "C87", "title": "The piano roll", "statement": "At the time of every block but the last, exactly the notes of the block's chord are sounding; every note starts and ends at blocks, belongs to the chord that lasts throughout it, and has a positive duration.", "quantifier": "all recordings with increasing times", "why_tests_cant": "durations filled in later through stored indices; all recordings of any length", "anchors": ["nnls-chroma-1.1/Chordino.cpp 556-588", "nnls-chroma-1.1/Chordino.cpp 603-622"]}
{"id": "C88", "title": "The chord plug-in runs through", "statement": "Whatever the recording, the parameters, the arithmetic and a well-formed dictionary file, the plug-in runs without a subscript out of range and returns one harmonic change and one log likelihood per block, with its timestamp.", "quantifier": "all recordings, parameters, block sizes from 4 up, dictionaries and junk memory", "why_tests_cant": "absence of undefined behaviour for all inputs", "anchors": ["nnls-chroma-1.1/Chordino.cpp 239-629", "nnls-chroma-1.1/chromamethods.cpp 342-535"]}
{"id": "C89", "title": "Silence has no chord", "statement": "If the Fourier magnitudes of all blocks stay below two, N is reported at the first and at the last block, and no chord and no note.", "quantifier": "all recordings, parameters and boosts", "why_tests_cant": "strict optimality of one among exponentially many sequences, for any length", "anchors": ["nnls-chroma-1.1/Chordino.cpp 278-622"]}
{"id": "C90", "title": "Likelihood and harmonic change", "statement": "The log likelihoods up to a frame add up to the logarithm of the sum over all chords of the greatest score of a sequence leading to it, hence over the recording to the log score of the best sequence and at most log 217 more; the harmonic change at a frame is the divergence of that frame's distribution of chords from the next one's, 0 at the last frame and never below -0.0000217.", "quantifier": "all recordings, parameters, sampling rates and block sizes", "why_tests_cant": "sums and suprema over exponentially many sequences, real logarithms", "anchors": ["nnls-chroma-1.1/Chordino.cpp 556-622", "nnls-chroma-1.1/viterbi.cpp 19-84"]}
{"id": "C91", "title": "Concert pitch", "statement": "The concert pitch the tuning plug-in reports - for the whole, or at a block - is the one to which the chroma plug-in, with global or local tuning, reads the same recording; it is 440 Hz for silence, does not depend on the level, rises by a third of a semitone when the sounds do, and stays within the announced extents.", "quantifier": "all recordings, parameters, sampling rates and block sizes", "why_tests_cant": "real trigonometry over all spectra; relates two plug-ins", "anchors": ["nnls-chroma-1.1/Tuning.cpp 85-217", "nnls-chroma-1.1/NNLSBase.cpp 367-500", "nnls-chroma-1.1/NNLSChroma.cpp 240-330"]}
{"id": "C92", "title": "The tuning plug-in runs", "statement": "The tuning plug-in runs on any recording without undefined behaviour, gives a local tuning for every block and one feature for the whole that starts at time zero and lasts until the last block, labelled with its value; after a reset nothing is left of the recording before.", "quantifier": "all recordings, parameters, sampling rates, block sizes of at least 4 and number arithmetics", "why_tests_cant": "unbounded runs, any floating point behaviour", "anchors": ["nnls-chroma-1.1/Tuning.cpp 150-217"]}
{"id": "C93", "title": "Extracting first changes nothing", "statement": "Extracting the chromagram of a recording with chromaextract and giving the program the CSV file leads to the same chromagram, the same pitch-class sequence and the same answer as giving it the recording, each value as it reads back from its printed form.", "quantifier": "all recordings, plug-ins, number formats, options without -e and --chroma-only", "why_tests_cant": "relates two programs through an arbitrary text; needs reasoning over every list of features", "anchors": ["nnls-chroma-1.1/chromaextract.cpp 50-153", "src/chromagram.cc 31-44", "src/chromagram.cc 104-210"]}
{"id": "C94", "title": "The chord list can be read back", "statement": "chordextract prints one line per reported chord, from which time and label of each can be read back in order, whatever characters the labels hold besides newlines; both extractors report success exactly when there was one argument, the file opened and the plug-in offered the output.", "quantifier": "all recordings, plug-ins, labels and argument lists", "why_tests_cant": "unbounded text; all failure combinations", "anchors": ["nnls-chroma-1.1/chordextract.cpp 50-148", "nnls-chroma-1.1/chromaextract.cpp 50-153"]}
{"id": "C95", "title": "Silence", "statement": "A silent or very quiet recording gives a chromagram of zeros and no pitch class, and the program ends with an answer or an error.", "quantifier": "all recordings below the threshold, windows, frame positions, options", "why_tests_cant": "Fourier sums over arbitrary samples; ends in undefined behaviour no test result can show reliably", "anchors": ["nnls-chroma-1.1/NNLSBase.cpp 440-480", "src/chromagram.cc 46-64", "src/justkeydding.cc 156-200", "src/hiddenmarkovmodel.cc 183-197"]}
{"id": "C96", "title": "Level does not matter", "statement": "With the default whitening the program prints the same and reports the same status for a recording played at another level.", "quantifier": "all recordings whose frames stay within the limits, positive factors, linear adapters, options and other files", "why_tests_cant": "all real factors and signals, through every stage", "anchors": ["nnls-chroma-1.1/NNLSBase.cpp 367-500", "nnls-chroma-1.1/NNLSChroma.cpp 219-560", "src/chromagram.cc 138-210", "src/justkeydding.cc 40-348"]}
{"id": "C97", "title": "The user's chord dictionary", "statement": "A chord.dict file is read as it is written: every chord type and all its numbers in order, comments and empty lines skipped; a dictionary with 24 numbers per type gives the plug-in twelve chords per type and 'N', and the documented comma-separated form and lines of blanks are accepted too.", "quantifier": "all dictionaries, number formats, separators, comments; all numbers of types", "why_tests_cant": "unbounded text; the failing forms end in undefined behaviour rather than in a wrong result", "anchors": ["nnls-chroma-1.1/chromamethods.cpp 272-437", "nnls-chroma-1.1/chromamethods.cpp 439-560"]}
{"id": "C98", "title": "Where the chord dictionary is looked for", "statement": "The directories searched are those of VAMP_PATH, cut at the colons, or else those of the home directory and of the system, and the first one holding a chord.dict decides; the search ends for every environment.", "quantifier": "all environments and file systems", "why_tests_cant": "termination for every value of HOME; unbounded paths", "anchors": ["nnls-chroma-1.1/chromamethods.cpp 209-264", "nnls-chroma-1.1/chromamethods.cpp 372-400"]}
{"id": "C99", "title": "Plug-in parameters can be saved and restored", "statement": "A new plug-in has the defaults its descriptors state; a value a descriptor allows reads back unchanged and leaves the other parameters alone; and setting a new plug-in to all values read from another, in any order, gives the same parameters, however the other was set.", "quantifier": "all parameter values, all sequences of settings, all orders, all three plug-ins", "why_tests_cant": "all values and all setting sequences", "anchors": ["nnls-chroma-1.1/NNLSBase.cpp 31-60", "nnls-chroma-1.1/NNLSBase.cpp 135-322", "nnls-chroma-1.1/Chordino.cpp 67-160", "nnls-chroma-1.1/Tuning.cpp 71-95"]}
{"id": "C100", "title": "The solver never overshoots", "statement": "Whatever it reports, the least-squares solver's answer is non-negative, its distance from the right-hand side and its own length are together within the length of the right-hand side (Pythagoras, with equality after a success), so it is never worse than no answer; and with a non-negative matrix no column times its coefficient is longer than the right-hand side.", "quantifier": "all matrices, right-hand sides, starting contents of the work arrays, all outcomes including giving up", "why_tests_cant": "a loop with data-dependent exits; the claim covers the runs that fail", "anchors": ["nnls-chroma-1.1/nnls.c 201-589"]}
{"id": "C101", "title": "Chroma values are bounded", "statement": "No value of the chroma or bass chroma is negative or exceeds a bound that depends only on the sampling rate and the block size; from 8 kHz on and with blocks of up to 16384 samples the bound is below the largest int.", "quantifier": "all recordings, parameters in their range, block sizes, rates, contents of uninitialised memory, whether or not the solver gives up", "why_tests_cant": "real-valued inputs; the bound must hold for the worst recording", "anchors": ["nnls-chroma-1.1/NNLSChroma.cpp 225-482", "nnls-chroma-1.1/NNLSBase.cpp 430-533", "nnls-chroma-1.1/nnls.c 201-589", "src/chromagram.cc 46-72"]}
{"id": "C102", "title": "Every recording can be converted", "statement": "For every recording from 8 kHz on the chromagram becomes ready, every discretised value converts to a non-negative int and the pitch-class sequence is defined; a default run then prints one of the 24 keys unless there is no pitch class or no possible key sequence.", "quantifier": "all recordings, windows, block sizes up to 16384, roundings of the program's doubles, options", "why_tests_cant": "unbounded recordings through the whole pipeline; conversion overflow is undefined behaviour", "anchors": ["src/chromagram.cc 46-72", "src/chromagram.cc 138-250", "src/justkeydding.cc 150-348", "nnls-chroma-1.1/NNLSChroma.cpp 225-482"]}
{"id": "C103", "title": "What the chromagram of a recording contains", "statement": "Without normalisation the chromagram of a recording has exactly one frame per block, in order, and entry pc of a frame is the sum of the block's semitone spectrum over the MIDI notes of pitch class pc, weighted with the treble window; the discrete chromagram holds these values rounded down.", "quantifier": "all recordings whose blocks have increasing times, block sizes, sampling rates, parameters, roundings of the program's doubles", "why_tests_cant": "unbounded recordings; a wrong column order through plug-in, reader and tables looks plausible", "anchors": ["nnls-chroma-1.1/NNLSChroma.cpp 225-482", "nnls-chroma-1.1/chromaextract.cpp 50-153", "src/chromagram.cc 46-72", "src/chromagram.cc 138-250"]}
{"id": "C104", "title": "Augmentation is faithful", "statement": "The features of a transposed piece are, number for number, the row that the data augmentation derives from the features of the untransposed piece, with the transposed label; this stays true after scaling, so the trainer's rotated rows are what the program would produce for the transposed music.", "quantifier": "all ensembles, pieces with a strictly best sequence of local keys, key labels, transpositions, hash-map orders", "why_tests_cant": "quantifies over runs of two languages on related inputs", "anchors": ["dataset.py: transpose 62-74, feature_scaling 130-136", "src/justkeydding.cc 150-348", "optimizer/ensembler.py 41-73"]}
{"id": "C105", "title": "What the classifier is fitted to", "statement": "For any number of data sets of one ensemble the classifier is fitted to exactly twelve rows per labelled piece, in order: the piece's features scaled as if alone, moved up t semitones, with the label moved up t semitones; the tester uses row 0; data of another ensemble stop the trainer.", "quantifier": "all lists of data sets, all feature values and labels", "why_tests_cant": "unbounded data; rows of different pieces could be mixed without any visible sign", "anchors": ["model_trainer.py 8-63", "model_tester.py 8-23", "dataset.py"]}
{"id": "C106", "title": "Foreign chroma files keep their contents", "statement": "A chroma file with a name column, twelve bass and twelve treble columns, quoted or not, is converted to the program's format so that the program reads one frame per line with the treble values at their pitch classes; the script for one extra column removes just that column.", "quantifier": "all files of that form: any number of lines, any names, any number texts", "why_tests_cant": "unbounded text and quoting through a state machine and a second parser", "anchors": ["tools/billboard/bothchroma2chroma.py 9-21", "tools/cross-era/remove_column.py 9-21", "src/chromagram.cc: getChromagramFromCsv 105-136"]}
{"id": "C107", "title": "Training and use see the same numbers", "statement": "For any folders of annotated music, whatever the program prints for the pieces, the first of the twelve training rows of a piece is number for number the row that the ensemble script hands to the classifier for that piece, with the annotated key as its label, and row t is that row moved up t semitones; hence a classifier that reproduces its training labels makes the script print the annotated key of every piece.", "quantifier": "all lists of folders, pieces, annotations, program outputs (including failing runs), classifiers", "why_tests_cant": "two programs, a file format and a loader in between; unbounded folders", "anchors": ["dataset_creator.py 83-270", "dataset.py 9-60, 118-136", "model_trainer.py 28-59", "justkeydding_ensemble.py 8-51", "optimizer/ensembler.py 31-73"]}
{"id": "C108", "title": "Duplicates are found", "statement": "Every file of the folder is either kept or reported as a duplicate; no two kept files start the same sequence of pitch classes, and a duplicate starts the same sequence as the kept file it is reported for, which was listed before it; so each sequence is kept exactly once.", "quantifier": "all folders, MIDI contents, listing orders", "why_tests_cant": "unbounded folders and note lists", "anchors": ["tools/experiment1/find_duplicates.py 4-21"]}
{"id": "C109", "title": "Filtering by annotation", "statement": "A feature file whose annotation exists is never removed; when names have exactly one dot the files left are exactly those with an annotation, so that the data-set program finds one for each of them.", "quantifier": "all folders", "why_tests_cant": "unbounded folders and arbitrary names", "anchors": ["tools/billboard/filter_confident_files.py 6-15", "tools/giantsteps-mtg-key-dataset/filter_confident_files.py 6-15", "dataset_creator.py 107-116"]}
{"id": "C110", "title": "Training and test split", "statement": "For any folder of pieces with distinct base names and any random sample, each piece is printed exactly once, for training or for the test; with the printed lines as splits the data-set program writes one row and one label per line.", "quantifier": "all folders, samples, features and annotations", "why_tests_cant": "random sample; unbounded folders", "anchors": ["tools/sample_datapoints.py 4-24", "dataset_creator.py 128-146, 218-242"]}
{"id": "C111", "title": "Key files of scores", "statement": "The key file made for a score holds the key the score designates.", "quantifier": "all scores", "why_tests_cant": "quantifies over all scores", "anchors": ["tools/albrecht/extract_keys.py 8-23", "dataset_creator.py 183-185"]}
{"id": "C112", "title": "The full algorithm answers for the file it is given", "statement": "The shell script writes the key that the ensemble finds for the input file: going through the intermediate chromagram changes nothing, for MIDI files and recordings.", "quantifier": "all input files, random names, profiles, transitions, classifiers", "why_tests_cant": "31 runs of a program, an intermediate file and a classifier; all recordings", "anchors": ["justkeydding 1-9", "justkeydding_ensemble.py 19-51", "optimizer/ensembler.py 31-73", "src/justkeydding.cc 149-190, 300-348", "src/chromagram.cc 84-110, 120-160"]}
{"id": "C113", "title": "Features are scores", "statement": "For any input with at least one pitch class, the 720 numbers the ensemble makes of it are, profile by profile and transition table by transition table, the 24 scores of the detection with exactly these tables, read back from print, and 24 penalties for a member that finds no key.", "quantifier": "all inputs, tables, number formats, hash-map orders", "why_tests_cant": "all pitch-class sequences through two programs", "anchors": ["optimizer/ensembler.py 31-73", "src/justkeydding.cc 100-330", "src/keyprofile.cc", "src/keytransition.cc", "src/hiddenmarkovmodel.cc"]}
{"id": "C114", "title": "Transposed music gets the transposed key", "statement": "If the classifier reproduces the labels of its training rows, the ensemble script prints the transposed key for every transposed version, in any format, of every training piece about which no member of the ensemble is undecided; the row the classifier sees is the row of the piece, moved.", "quantifier": "all folders, pieces, transpositions, formats, classifiers", "why_tests_cant": "relates runs on unboundedly many inputs across training and use", "anchors": ["dataset_creator.py 83-270", "dataset.py 9-60, 118-136", "model_trainer.py 28-59", "justkeydding_ensemble.py 8-51", "optimizer/ensembler.py 31-73", "src/hiddenmarkovmodel.cc"]}
{"id": "C115", "title": "Chords of a user's dictionary", "statement": "Every chord type of a chord dictionary supplied by the user is labelled, for each of the twelve roots and in both notations, by the root, the name the user gave and the bass note after a slash if it is not the root; the notes delivered are that bass note and the tones of the type over that root.", "quantifier": "all dictionaries, chord types, roots, both notations", "why_tests_cant": "the dictionary is arbitrary user data", "anchors": ["nnls-chroma-1.1/chromamethods.cpp 249-490"]}
{"id": "C116", "title": "The plug-ins deliver what they announce", "statement": "Every output of the chroma and the chord plug-in has the number of values, the times, the durations and the range of values that its description announces to the host, and a bin named after a pitch class contains exactly that pitch class of the semitone spectrum, from the bass or the treble range as the name says.", "quantifier": "all recordings, parameters, normalisations, dictionaries, arithmetics", "why_tests_cant": "hosts allocate by the announcement; all recordings and parameters", "anchors": ["nnls-chroma-1.1/NNLSChroma.cpp 62-217, 470-474", "nnls-chroma-1.1/Chordino.cpp 162-237, 549-622"]}
{"id": "C117", "title": "Renaming scripts lose no file", "statement": "After a renaming script of /tools every piece and every annotation is still there, under the new name, and pieces and annotations still belong together.", "quantifier": "all folders, listings, names, contents", "why_tests_cant": "file systems and names are unbounded; a test tries one folder once", "anchors": ["tools/shorten_names.sh 5-23", "tools/experiment1/incremental_names.sh 3-10", "tools/experiment1/trim_names.sh 3-7", "tools/giantsteps-key-dataset/trim_names.sh 3-7", "tools/giantsteps-mtg-key-dataset/trim_names.sh 3-7", "tools/billboard/trim_names.sh 3-7", "tools/cross-era/change_extensions.sh 3-7"]}
{"id": "C118", "title": "Trimmed splits are used", "statement": "A split whose lines were trimmed by billboard/trim_datasplits.sh is written by the data-set program as a split of the data set.", "quantifier": "all data sets, splits, names", "why_tests_cant": "the two programs only meet through files; all data sets", "anchors": ["tools/billboard/trim_datasplits.sh 3-7", "tools/billboard/trim_datasplits2.sh 3-7", "dataset_creator.py 133-145, 218-242"]}
{"id": "C119", "title": "Keys in file names", "statement": "From files named stem_key.ext the script arthur2018/trim_annotations.sh makes key files with which the data-set program gives every piece the label of the key in its name.", "quantifier": "all listings, stems, keys, data sets", "why_tests_cant": "names are unbounded; script and program only meet through files", "anchors": ["tools/arthur2018/trim_annotations.sh 3-7", "dataset_creator.py 148-187"]}
{"id": "C120", "title": "Chord smoother survives rounding", "statement": "ViterbiPath in double arithmetic returns, for a recording of any length, a chord path whose probability is the greatest one up to a tiny factor per frame, and exactly the most probable path if that one is ahead by more.", "quantifier": "all tables with probabilities zero or at least 2^-300 and possible transitions, up to 2^40 chords, any number of frames", "why_tests_cant": "rounding errors, underflow over unbounded recordings and exponentially many paths", "anchors": ["nnls-chroma-1.1/viterbi.cpp 5-84"]}
{"id": "C121", "title": "Key detection survives rounding", "statement": "In double arithmetic the program's local keys are a most probable key sequence with respect to the printed tables up to a stated tiny factor, the main key has the greatest evidence up to that factor, the printed scores are the logarithms of the evidence up to a stated error, and music that is decided by more than the factor gets exactly the right keys.", "quantifier": "all pitch-class sequences up to 2^40 notes, all profiles and transitions of the command line, all hash orders, every log10 within a given error", "why_tests_cant": "rounding errors accumulate over unbounded input; exponentially many key sequences", "anchors": ["src/hiddenmarkovmodel.cc 179-248", "src/justkeydding.cc 210-260"]}
{"id": "C122", "title": "What the table search minimises", "statement": "For data annotated by tools/annotate_inline.py the error that the table search gives a pair of tables is the sum over all pieces of the MIREX penalty (0 right, 0.75 fifth, 0.91 relative, 0.96 parallel, 1 other or no key) of the key the program names with these tables; it is 0 exactly if all keys are right, and when the search ends the pair it reports names the annotated key of every piece.", "quantifier": "all tables of 24 numbers, all annotated data sets, all hash orders, all random sequences of the search", "why_tests_cant": "the error is the composition of three programs over all data sets; the end of the search depends on all random draws", "anchors": ["optimizer/evaluator.py 9-65", "tools/annotate_inline.py 70-89", "ga.py", "src/justkeydding.cc 252-268"]}
{"id": "C123", "title": "Evaluation lists hold the annotated files", "statement": "The list of files that tools/run_all_evaluations.sh hands to the table search for a data set of copies holds every annotated copy and none of the unannotated originals.", "quantifier": "all data sets of the script, all file names", "why_tests_cant": "names of files are unbounded; the pattern of the last list reads like an alternative but is a set of characters", "anchors": ["tools/run_all_evaluations.sh 3-57"]}
{"id": "C124", "title": "Batch tables", "statement": "For each choice of tables tools/batch_processing.sh writes one line per file, the name and the score the program prints for it.", "quantifier": "all files, all choices of tables of all_batches.sh", "why_tests_cant": "the run behind each line is undefined in C++, a test sees one lucky outcome", "anchors": ["tools/batch_processing.sh 3-6", "tools/all_batches.sh 2-19", "src/justkeydding.cc 96-120"]}
{"id": "C125", "title": "Textbook phrases get their key", "statement": "A piece made of scales, broken triads, arpeggios, Alberti basses, cadences (and, in major, a circle of fifths, a scale in thirds and the song Fr\u00e8re Jacques) of one key, in any order and number, is heard in that key from the first note to the last, and the program prints that key.", "quantifier": "all 24 keys, all sequences of the ten major or nine minor phrases with up to 2^19 notes, all pairs of profiles of the command line that are both Krumhansl-Kessler or both not, default transitions, double arithmetic, all hash orders", "why_tests_cant": "there are infinitely many pieces; that no other sequence of keys wins needs a bound on all 24^n sequences, and in doubles on the rounding of all of them", "anchors": ["src/hiddenmarkovmodel.cc", "src/justkeydding.cc 194-286", "src/keyprofile.cc", "src/keytransition.cc"]}
{"id": "C126", "title": "The search takes turns", "statement": "One turn of the optimiser makes one new generation of profiles or of transitions. It is kept exactly if its least error is below the lowest so far, or equal to it with a sum of errors at most the stored sum; then the population is the new one sorted by error, and everything about the other kind stays. Otherwise nothing but the count of refusals changes, and after threshold + 1 refusals in a row the other kind has its turn. Hence n refusals in a row change sides (bad + n) / (threshold + 1) times. An equally good generation never replaces one of smaller total error.", "quantifier": "all populations, dictionaries, benches, thresholds, random draws, numbers of turns", "why_tests_cant": "the counters and the two populations interact over unboundedly many random turns; the comparison with a stale sum shows only after a change of sides", "anchors": ["ga.py 103-173"]}
{"id": "C127", "title": "Mutations are small", "statement": "A mutated profile is the parent itself or a new table with a tenth of one entry moved to another entry of the same mode; a mutated stochastic transition table is a new table with a tenth of one entry moved to another; a mutated geometric table is the geometric table of a ratio within a tenth of the parent's, and that ratio is stored. No stored table is changed.", "quantifier": "all tables, names, draws", "why_tests_cant": "an entry moved across the two modes, or a ratio stored under the wrong name, yields tables that still sum to one", "anchors": ["optimizer/evolver.py 62-82,113-143"]}
{"id": "C128", "title": "A plug-in can be set up again", "statement": "A plug-in instance accepts exactly one channel, and after a refused attempt to set it up (or any other) it can be set up and used as if it were new.", "quantifier": "all parameters, sample rates, block sizes, channel counts, recordings, arithmetics", "why_tests_cant": "hosts differ in what they try first; the program aborts only when features are collected", "anchors": ["nnls-chroma-1.1/NNLSBase.cpp 351-423", "nnls-chroma-1.1/chromamethods.cpp 46-72"]}
{"id": "C129", "title": "A change of key needs evidence", "statement": "Take any part of the detected local keys that begins after key A (or at the beginning) and ends before key A (or at the end). Its notes are more probable in the detected keys than in A throughout, by the price of a change for every change of key in and around it (10 for the default transitions), up to rounding; and every note is possible in the key detected for it. With the Krumhansl-Kessler profiles an excursion that returns to its key lasts at least five notes, and a piece does not begin or end with fewer than three notes outside of the neighbouring key.", "quantifier": "all tables of the command line, pieces of up to 2^40 (2^19) notes, hash orders, logarithms close to the true one", "why_tests_cant": "needs the global optimality of the path in double arithmetic; tests only see single pieces", "anchors": ["src/hiddenmarkovmodel.cc 179-248", "src/keyprofile.cc 66-153", "src/keytransition.cc", "src/justkeydding.cc 194-286"]}
{"id": "C130", "title": "No key for a single note", "statement": "A single note between two notes of the same local key has that local key.", "quantifier": "all pieces of up to 2^19 notes, command line profiles with the default transitions, hash orders", "why_tests_cant": "the profile tables decide this through a quotient of two entries for one of 12 notes and 24 x 23 pairs of keys; a random piece hardly meets the one pair that fails", "anchors": ["src/hiddenmarkovmodel.cc 179-248", "src/keyprofile.cc 66-153"]}
{"id": "C131", "title": "Five-finger exercises", "statement": "A five-finger exercise (do re mi fa sol fa mi re do, or its minor form), played any number of times in any key, is in that key from the first note to the last.", "quantifier": "all 24 keys, all numbers of repetitions up to 2^19 notes, command line profiles with the default transitions, hash orders", "why_tests_cant": "unboundedly many pieces; the default profile answers wrongly for all of them in major, which single tests of famous pieces do not show", "anchors": ["src/hiddenmarkovmodel.cc 179-248", "src/keyprofile.cc 66-153", "src/justkeydding.cc 313-332"]}
{"id": "C132", "title": "Played backwards", "statement": "The keys found in a piece played backwards, read backwards, explain the piece as well as the keys found in it, up to rounding. If the best sequence of keys and the best main key are clear (better than all others by more than rounding), the reversed piece gets the reversed local keys and the same main key.", "quantifier": "all tables of the command line, pieces of up to 2^40 notes, hash orders, logarithms close to the true one", "why_tests_cant": "the dynamic program works from left to right and breaks ties by its own order; that the direction does not matter follows only from the symmetry of the transition tables and global optimality", "anchors": ["src/hiddenmarkovmodel.cc 68-178", "src/keytransition.cc 53-112", "src/justkeydding.cc 194-286"]}
{"id": "C133", "title": "Established keys and changes of key are found", "statement": "With the default settings, when scales, broken chords and cadences of a key are played for some time in the middle of any other music, every note of them gets that key as local key, except in the first 16 and the last 16 phrases; at the beginning and the end of a piece nothing is excepted. So in a piece that changes key the parts are found up to 16 phrases around the change. A key that holds more than eight ninths of the piece this way is the key that the program prints.", "quantifier": "all keys, all orders and numbers of the phrases, all music before and after, pieces of up to 2^19 notes, hash orders, logarithms close to the true one", "why_tests_cant": "the music around the passage is arbitrary and the local keys are chosen by a global optimum over all of it; no set of examples shows that nothing around a passage can change its keys", "anchors": ["src/hiddenmarkovmodel.cc 68-178", "src/keyprofile.cc 54-130", "src/keytransition.cc 53-112", "src/justkeydding.cc 194-286"]}
{"id": "C134", "title": "The scripts that collect chromagrams lose no data", "statement": "Copying the chromagrams out of the track folders leaves one file for each track, with its chromagram; running it again changes nothing. Removing duplicates removes the listed pieces from all four folders and nothing else. The extracted chromagrams get the names of their recordings, one for each recording.", "quantifier": "all folders, file contents, names and orders of the listing", "why_tests_cant": "the scripts delete what they copy; whether something is lost depends on all the names in the folder together and on what earlier steps did to it", "anchors": ["tools/billboard/copy_bothchroma.sh 5-10", "tools/experiment1/remove_duplicates.sh 3-9", "tools/arthur2018/rename_chromagrams.sh 3-8", "tools/napoles2018/rename_chromagrams.sh 3-8", "tools/batch_chromagram.sh 3-6"]}
{"id": "C135", "title": "Only the notes of a MIDI file matter", "statement": "The output for a MIDI file depends only on the pitch classes of its notes in order: not on octaves, instruments and channels, velocities, note lengths, tempo, controllers or the name of the file, with any options but -e. Percussion does not change the key.", "quantifier": "all MIDI files, options, arithmetic; for percussion all melodies of up to 50000 events and all keys", "why_tests_cant": "the files that sound alike are infinitely many and differ in every event; the whole program has to be followed", "anchors": ["src/midi.cc 39-55", "src/justkeydding.cc 38-285"]}
{"id": "C136", "title": "The printed key is the best of the printed scores", "statement": "The same command with and without -p: either both die of out_of_range, or the key printed without -p has the greatest of the 24 numbers printed with -p; if one printed number exceeds all others, its key is the one printed without -p. A number that is nan never wins.", "quantifier": "all inputs with at least one pitch class, all options but -e, all custom tables, all arithmetic satisfying the order laws, all printing functions that do not reverse the order of numbers", "why_tests_cant": "the two answers come from two runs of two chained models; a difference shows only for inputs where a wrong entry happens to be the largest", "anchors": ["src/justkeydding.cc 38-285", "src/hiddenmarkovmodel.cc: runViterbi 183-248"]}
{"id": "C137", "title": "Only the succession of sounds in a chroma file matters", "statement": "The output for a chroma file does not change when it is replaced by a file in which the same sounds (whole units of the twelve pitch classes) follow each other: it does not depend on the time stamps, on how many rows a sound is held, on the order of the rows in the file or on fractions of a unit. This holds for key, scores and evaluation; only the export of chroma differs.", "quantifier": "all chroma files with 12 numbers per row and different time stamps, all options but the export, whatever lies in memory behind the last frame", "why_tests_cant": "the files that sound alike are infinitely many and differ in every row; the whole program has to be followed", "anchors": ["src/chromagram.cc 46-64,105-136,232-243", "src/justkeydding.cc 38-285"]}
{"id": "C138", "title": "A repeat does not change the key", "statement": "A piece that is played twice gets the key of the piece. Pieces that are in one key from beginning to end may be joined and repeated in any order and stay in this key at every note.", "quantifier": "all pieces of up to 2^19 notes, all keys, all profiles, double arithmetic with any accurate logarithm, all hash orders", "why_tests_cant": "lengths are unbounded and the repeat can change the local key of every note", "anchors": ["src/hiddenmarkovmodel.cc: runViterbi 183-248", "src/justkeydding.cc 190-285", "src/keytransition.cc", "src/keyprofile.cc"]}
{"id": "C139", "title": "A closing chord does not change the key", "statement": "When a piece has been given a key and is closed with the tonic triad of this key, it keeps the key. A piece in one key from beginning to end stays in it, at every note, when textbook phrases in this key or (default profiles) any number of tonics and dominants are added.", "quantifier": "all pieces of up to 2^19 notes, all keys, double arithmetic with any accurate logarithm, all hash orders", "why_tests_cant": "lengths are unbounded and added notes can change the local key of every note before them", "anchors": ["src/hiddenmarkovmodel.cc: runViterbi 183-248", "src/justkeydding.cc 190-285", "src/keytransition.cc", "src/keyprofile.cc"]}
{"id": "C140", "title": "The order of the notes of a chord does not matter", "statement": "Two MIDI files with the same chords get the same key in whatever order the simultaneous notes of a chord are listed. If a piece and a reordering of all its notes are each heard in one key from beginning to end, it is the same key.", "quantifier": "all pieces of up to 2^19 notes, all keys, double arithmetic with any accurate logarithm, all hash orders", "why_tests_cant": "n! orders per chord and unbounded lengths; the local keys depend on the order", "anchors": ["src/midi.cc", "src/hiddenmarkovmodel.cc: runViterbi 183-248", "src/justkeydding.cc 190-285"]}
{"id": "C141", "title": "A transposed chroma file gets the transposed key", "statement": "When all values of a chroma file are moved by t columns, the reported key moves by t semitones. For melodies (at most one pitch class with two or more units per row) the sequence of pitch classes read from the file moves by t semitones, and so does the key unless the program is undecided.", "quantifier": "all chroma files, all t, all hash orders, any arithmetic with the laws of doubles", "why_tests_cant": "unbounded files times 12 transpositions; the rows are read in a fixed order of pitch classes", "anchors": ["src/chromagram.cc: getPitchClassSequence 46-64, getChromagramFromCsv 105-136", "src/hiddenmarkovmodel.cc: runViterbi 183-248", "src/justkeydding.cc 190-285"]}
{"id": "C142", "title": "Conversion scripts convert every piece and harm none", "statement": "krn2midi.sh makes a MIDI file beside each Humdrum score of the folder and symbolic2audio.sh a recording beside each score; each product is made from the score with the same stem, the scores stay, and a second run changes nothing.", "quantifier": "all folders, all names, all behaviours of hum2mid and MuseScore", "why_tests_cant": "unbounded folders and an unspecified external converter", "anchors": ["tools/albrecht/krn2midi.sh", "tools/arthur2018/symbolic2audio.sh"]}
{"id": "C143", "title": "All piano recordings of MAPS are collected", "statement": "get_mus_audios.sh copies every recording of a piece found below the working folder to the folder features under its own name, each with its own contents, and changes no other file.", "quantifier": "all folder trees and all file contents", "why_tests_cant": "unbounded trees; two recordings may share a name", "anchors": ["tools/maps/get_mus_audios.sh"]}
{"id": "C144", "title": "Names and keys of the MAPS pieces are listed", "statement": "extract_data.py lists, in the order of the file names, the full name of every piece that has one (the track name before the first copyright notice) and the first key signature of every piece that has one, and nothing else.", "quantifier": "all folders of MIDI files, all sequences of messages", "why_tests_cant": "unbounded folders and files", "anchors": ["tools/maps/extract_data.py: extract_full_name 26-38, extract_key_signature 41-48"]}
{"id": "C145", "title": "Typed-in tables count like the built-in ones", "statement": "Giving the numbers of two built-in profiles with -K has exactly the effect of naming them with -M and -m, and giving the numbers of a built-in table of transitions with -T that of naming it with -t: same output, same messages, same exit status. Names given beside -K or -T are ignored.", "quantifier": "all input files, all option sets, all built-in tables, all hash orders, any arithmetic", "why_tests_cant": "unbounded input files times all tables", "anchors": ["src/justkeydding.cc 94-146, 200-211", "src/keyprofile.cc: KeyProfile 44-63", "src/keytransition.cc"]}
{"id": "C146", "title": "Transposed MIDI files: key and evaluation", "statement": "If all notes of a MIDI file are t semitones higher (up to octaves), the program reports the key t semitones higher, and with -e the transposed file with the transposed annotation in its name gets the same score as the original, with any built-in or custom tables, unless the program is undecided about the original.", "quantifier": "all MIDI files, all t, all tables, all hash orders, any arithmetic with the laws of doubles", "why_tests_cant": "unbounded files times 12 transpositions times all tables", "anchors": ["src/midi.cc: getPitchClassSequence 39-55", "src/hiddenmarkovmodel.cc: runViterbi 183-248", "src/justkeydding.cc 155-285"]}
{"id": "C147", "title": "Files that are no chroma files are refused", "statement": "A csv file is read if each of its rows is a time followed by twelve numbers; any other file is refused with an error message and an error status.", "quantifier": "all csv files", "why_tests_cant": "unbounded files with malformed lines at any place", "anchors": ["src/chromagram.cc: getChromagramFromCsv 105-136", "src/justkeydding.cc: main 166-188"]}
{"id": "C148", "title": "The level of a chroma file does not matter", "statement": "A chroma file in which every value is multiplied by the same positive number gets the same key.", "quantifier": "all chroma files, all factors, all binary64 arithmetics", "why_tests_cant": "unbounded files and a continuum of factors", "anchors": ["src/chromagram.cc: getPitchClassSequence 46-64, discretizeChromagram 232-243", "src/justkeydding.cc: main 195-300"]}
{"id": "C149", "title": "Output options only choose what is printed", "statement": "With -e the program prints the score of exactly the key that it prints without -e, for every file that gets a key; with -c it prints the chromagram and nothing else, whatever the other options are.", "quantifier": "all inputs, command lines, file names, arithmetics", "why_tests_cant": "unbounded inputs and file names; two runs are compared", "anchors": ["src/justkeydding.cc: main 53-188", "src/justkeydding.cc: main 243-285"]}
{"id": "C150", "title": "MIDI file and chroma file of a piece agree", "statement": "The same chords as a MIDI file and as a chroma file get the same key.", "quantifier": "all pieces of chords, all times, all binary64 arithmetics", "why_tests_cant": "unbounded pieces; two input paths of the program are compared", "anchors": ["src/midi.cc: getPitchClassSequence", "src/chromagram.cc: getPitchClassSequence 46-64", "src/justkeydding.cc: main 155-188"]}
{"id": "C151", "title": "Typed-in tables: the best key by the typed numbers", "statement": "With typed-in profiles and transitions the program prints a key that is best, up to a stated rounding factor, for a sequence of local keys that is most probable by the typed numbers up to that factor; it fails only if the typed numbers make every sequence of keys, or every key for that sequence, impossible.", "quantifier": "all tables of zeros and numbers between 2^-490 and 2^490, all MIDI files of up to 2^40 notes, all hash orders, all close log10 functions", "why_tests_cant": "continuum of tables and unbounded pieces in double arithmetic", "anchors": ["src/justkeydding.cc: main 94-146", "src/justkeydding.cc: main 190-285", "src/hiddenmarkovmodel.cc: runViterbi", "src/keytransition.cc", "src/keyprofile.cc"]}
{"id": "C152", "title": "Typed-in tables may be in any unit, also in double arithmetic", "statement": "If a piece is decided by the typed-in numbers (one sequence of keys is more probable than every other one, and speaks more for one key than for every other one, each by a stated rounding factor), the program prints that key; it prints the same key when all transitions are multiplied by one positive number and all profile values by another one.", "quantifier": "all tables and positive factors such that all numbers are zero or between 2^-490 and 2^490, all decided MIDI files of up to 2^40 notes, all hash orders, all close log10 functions", "why_tests_cant": "continuum of tables and factors and unbounded pieces in double arithmetic", "anchors": ["src/justkeydding.cc: main 94-146", "src/justkeydding.cc: main 190-285", "src/hiddenmarkovmodel.cc: runViterbi", "src/keytransition.cc", "src/keyprofile.cc"]}
{"id": "C153", "title": "The trained classifier treats all keys alike", "statement": "Because it is fitted to all twelve transpositions of every training piece, the fitted classifier prefers no key: the decision value of the transposed key for a transposed row equals that of the key for the row, exactly for weights of the smallest objective and up to a stated bound for weights near it. Hence for any music, whether it was in the training data or not, about which no member of the ensemble is undecided and for which one key leads by more than that bound, the ensemble script prints the transposed key for every transposed version in any format.", "quantifier": "all folders of training music, all music, transpositions and formats, all fitted weights within any epsilon of the minimum", "why_tests_cant": "relates an optimisation problem over thousands of real weights to runs on unboundedly many inputs", "anchors": ["model_trainer.py 41-60", "dataset.py: transpose 62-74, data_augmentation 118-128", "justkeydding_ensemble.py 43-51", "optimizer/ensembler.py 31-73"]}
{"id": "C154", "title": "Neither the order nor the keys of the training pieces matter", "statement": "Training on the same annotated pieces listed in another order, distributed among data sets in another way, or transposed one by one together with their annotations gives a classifier with the same decision values, up to a bound that is zero for exactly fitted weights; hence the ensemble script prints the same key for every file for which one key leads by more than the bound.", "quantifier": "all folders, orders, distributions and transpositions, all fitted weights within any epsilon of the minimum, all files", "why_tests_cant": "relates two optimisation problems over unbounded training sets", "anchors": ["model_trainer.py 28-60", "dataset.py: transpose 62-74, data_augmentation 118-128", "dataset_creator.py 83-270", "justkeydding_ensemble.py 43-51"]}
{"id": "C155", "title": "The shipped description of the plug-ins is right", "statement": "The file nnls-chroma.n3 that hosts read describes the plug-ins as they are: the library has these plug-ins, the parameters exist with these ranges and defaults and do something, and the outputs have these identifiers, bins and names.", "quantifier": "all recordings, parameter values, numbers of plug-ins, all arithmetics", "why_tests_cant": "every value of every parameter and every recording; the file is data that no test loads", "anchors": ["nnls-chroma-1.1/nnls-chroma.n3", "nnls-chroma-1.1/plugins.cpp: vampGetPluginDescriptor 28-46", "nnls-chroma-1.1/Chordino.cpp: getParameterDescriptors, getOutputDescriptors 67-237", "nnls-chroma-1.1/Tuning.cpp: getOutputDescriptors 93-137", "nnls-chroma-1.1/NNLSBase.cpp: setParameter 267-322"]}
{"id": "C156", "title": "What chordextract prints", "statement": "For every recording chordextract prints a line for the first chord, for every change and for the end of a sequence of chords that explains the chroma of the recording best; a silent recording gets two lines with N; and a recording played at another level gets the same lines.", "quantifier": "all recordings of up to INT_MAX frames, exact arithmetic inside the plug-in, any (for the level: linear) adapters, all positive factors", "why_tests_cant": "a relation between two executions and a global optimum over all sequences of chords, through file reader, plug-in and printer", "anchors": ["nnls-chroma-1.1/chordextract.cpp 50-148", "nnls-chroma-1.1/Chordino.cpp 239-629", "nnls-chroma-1.1/NNLSBase.cpp 367-532"]}
{"id": "C157", "title": "The order of the entries of chord.dict", "statement": "For every dictionary of the user the chord list is that of a sequence of its chords that explains the chroma best; entries written in another order give again the list of such a sequence, and the very same list if only one sequence is best; a silent recording gets N whatever the dictionary says.", "quantifier": "all recordings, all parameters without normalisation of the chroma, all complete dictionaries, all permutations of their entries, exact arithmetic", "why_tests_cant": "a global optimum over all sequences of chords, and a relation between the runs for all permutations of all dictionaries", "anchors": ["nnls-chroma-1.1/chromamethods.cpp 395-520", "nnls-chroma-1.1/Chordino.cpp 239-629", "nnls-chroma-1.1/viterbi.cpp 6-84"]}
{"id": "C158", "title": "Boosting N", "statement": "Raising the parameter boost N never lowers the share of N in any frame and never raises that of a chord, and within its range it changes them strictly unless the frame is empty or exceedingly loud; the best sequence then leaves at least as much of the recording without a chord, and a recording that is best explained without any chord stays so.", "quantifier": "all pairs of values of the parameter, all frames, all recordings, all parameters without normalisation of the chroma, exact arithmetic", "why_tests_cant": "a relation between two executions for all recordings, through a global optimum over all sequences of chords", "anchors": ["nnls-chroma-1.1/chromamethods.cpp 489-517", "nnls-chroma-1.1/Chordino.cpp 134-143", "nnls-chroma-1.1/Chordino.cpp 239-629"]}
{"id": "C159", "title": "Each parameter acts only where it should", "statement": "The spectrum the chroma plug-in reports depends neither on the choice of the transcription, nor on the shape of its note profiles, nor on the normalisation of the chroma, nor on what uninitialised memory contains; the semitone spectrum does not depend on the normalisation; and with the transcription switched off none of the outputs depends on the shape of the note profiles or on uninitialised memory.", "quantifier": "all pairs of settings of the parameters, all recordings, all sampling rates, all contents of uninitialised memory, every arithmetic whose comparison is an order and whose tuning stays in range (exact and rounded ones; no not-a-number)", "why_tests_cant": "non-interference: a relation between two executions for all recordings and settings", "anchors": ["nnls-chroma-1.1/NNLSBase.cpp 262-320", "nnls-chroma-1.1/NNLSBase.cpp 351-425", "nnls-chroma-1.1/NNLSBase.cpp 441-532", "nnls-chroma-1.1/NNLSChroma.cpp 219-481"]}
{"id": "C160", "title": "The spelling of the chords changes only their names", "statement": "Switching the chord plug-in between the usual notation and that of Harte never changes whether it completes, the notes, the harmonic change, the likelihood, or when and between which chords it changes: the two lists name the same chords of the dictionary at the same times, and with the built-in dictionary each pair of names is a correct name of one chord in the two notations.", "quantifier": "all recordings, all parameters, all dictionaries (built-in or of the user), all values of the switch, all contents of uninitialised memory, any arithmetic", "why_tests_cant": "a relation between two executions for all recordings, dictionaries and parameters", "anchors": ["nnls-chroma-1.1/chromamethods.cpp 300-535", "nnls-chroma-1.1/Chordino.cpp 239-251", "nnls-chroma-1.1/Chordino.cpp 270-629"]}
{"id": "C161", "title": "What does not affect the chords", "statement": "Nothing the chord plug-in says depends on the normalisation of the chroma; with the transcription switched off nothing depends on the shape of the note profiles or on what uninitialised memory contains.", "quantifier": "all pairs of settings of these parameters, all recordings, all dictionaries, all sampling rates, all contents of uninitialised memory, every arithmetic whose comparison is an order and whose tuning stays in range", "why_tests_cant": "non-interference: a relation between two executions for all recordings and settings", "anchors": ["nnls-chroma-1.1/Chordino.cpp 239-251", "nnls-chroma-1.1/Chordino.cpp 270-629", "nnls-chroma-1.1/NNLSBase.cpp 351-425"]}
{"id": "C162", "title": "The key of a piece is a key nearest to its local keys", "statement": "With either transition table the key that is given is one whose distances to the local keys, on the chart of the keys, add up to the least. So it does not depend on the order of the local keys nor on the table (unless two keys are equally near); a key that more than three quarters of the notes have wins; so does the key of a passage that makes up more than three quarters of a piece, whatever the rest is; further local keys that are the key of the piece do not change it. The scores that are printed rank the keys by these distances. Three quarters cannot be lowered: a piece two thirds of which are in one key and the rest in the key at the tritone is given a third key.", "quantifier": "all pieces of at most 2^19 notes, all profiles and both tables of the command line, all hash orders, IEEE-754 doubles with every log10 off by at most 2^-30", "why_tests_cant": "optimality over 24 keys and sums over all sequences of local keys, in rounded arithmetic; relations between two runs", "anchors": ["src/keytransition.cc 59-75", "src/justkeydding.cc 210-260", "src/hiddenmarkovmodel.cc 179-248"]}
{"id": "C163", "title": "Checking the splits of a data set", "statement": "The numbers the script verify_dataset_splits.sh prints agree (pieces = annotations = lines for training + lines for testing) if and only if every piece has an annotation and is in exactly one split.", "quantifier": "all folders, all contents of the split files", "why_tests_cant": "all texts and listings; the converse is a counting argument over arbitrary sets of files", "anchors": ["tools/verify_dataset_splits.sh 3", "dataset_creator.py: __init__ 132-143", "dataset_creator.py: write 215-242"]}
{"id": "C164", "title": "The test files of the repository get the keys in their names", "statement": "Each of the 24 MIDI files in test_data holds the scale of the key in its name, one file per key. With the default transitions and any choice of the built-in key profiles, the program prints that key for the file, and -e prints the score 1.", "quantifier": "all 24 files in any directory, all profile choices, all hash orders, all log10 within 2^-30 of the true one", "why_tests_cant": "binary64 decoding over all key sequences of the piece, with an arbitrary hash order and logarithm; a test sees one platform", "anchors": ["test_data/01_C.mid ... test_data/24_d.mid", "src/justkeydding.cc 155-285", "src/midi.cc: getPitchClassSequence 39-55"]}
{"id": "C165", "title": "The local keys of a passage depend on the passage and its neighbours only", "statement": "Take any passage of a piece, at the beginning, inside or at the end. No other keys for its notes fit better between the local keys before and after it than the local keys of the passage, by the printed transitions and profiles, up to rounding. So a passage that occurs in two pieces between the same local keys gets the same local keys in both, provided one choice of keys fits it best by a tenth.", "quantifier": "all passages of all pieces of up to 2^40 (2^19) notes, all tables of the command line, hash orders, logarithms close to the true one", "why_tests_cant": "the optimality is global and in double arithmetic; tests cannot range over all passages and all surroundings", "anchors": ["src/hiddenmarkovmodel.cc: runViterbi 183-248", "src/justkeydding.cc 199-215"]}
{"id": "C166", "title": "Scales from any degree", "statement": "A scale without foreign notes, played up and down from any of its seven notes (any number of such scales, in any order), is heard in its major key, except from the sixth note: the natural minor scale is heard in its minor key.", "quantifier": "all tonics and degrees, pieces of up to 2^19 notes, all hash orders, all log10 within 2^-30 of the true one; natural minor: all 25 pairs of profiles", "why_tests_cant": "optimality over all 24^15 sequences of keys in double arithmetic, for every hash order and logarithm", "anchors": ["src/hiddenmarkovmodel.cc: runViterbi 183-248", "src/justkeydding.cc 190-285", "src/keyprofile.cc"]}
{"id": "C167", "title": "Every note struck several times", "statement": "Striking every note of a piece d times in place of once, as in a slower playing of the same tune, leaves the key that is found; music that stays in a key when struck d times stays in it when struck once.", "quantifier": "all pieces, all d, all keys, all tables of profiles and transitions; the program: all hash orders, all log10 within 2^-30 of the true one", "why_tests_cant": "quantifies over all pieces and all sequences of keys; the witness needs a proof of optimality among all 24^8 sequences in double arithmetic", "anchors": ["src/hiddenmarkovmodel.cc: runViterbi 183-248", "src/justkeydding.cc 190-285", "src/keytransition.cc"]}
{"id": "C168", "title": "A change of key takes no detour", "statement": "Where the music changes from one key to another, the program passes through no keys that the notes do not call for, and a piece whose two halves are in two keys gets one of them as its key.", "quantifier": "all pieces, passages, hash orders, profiles and transitions, all log10 within 2^-30 of the true one", "why_tests_cant": "quantifies over routes of any length through 24 keys; the witness needs a proof of optimality among all 24^24 sequences in double arithmetic", "anchors": ["src/keytransition.cc", "src/hiddenmarkovmodel.cc: runViterbi 183-248", "src/justkeydding.cc 190-285"]}
{"id": "C169", "title": "Well-known tunes are heard in their key", "statement": "A tune that everybody knows, sung on any tonic, and any sequence of such tunes on one tonic, is heard in the major key of that tonic.", "quantifier": "all tonics, all sequences of the tunes up to 2^19 notes, all hash orders, default tables, all log10 within 2^-30 of the true one", "why_tests_cant": "quantifies over tune sequences of any length, all tonics, hash orders and logarithms; optimality is among all 24^n key sequences in double arithmetic", "anchors": ["src/keyprofile.cc", "src/keytransition.cc", "src/hiddenmarkovmodel.cc: runViterbi 183-248", "src/justkeydding.cc 190-285"]}
