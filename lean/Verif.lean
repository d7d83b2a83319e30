import Verif.Cpp
import Verif.FP.Binary64
import Verif.FP.Error
import Verif.FP.ExactScore
import Verif.FP.Passage
import Verif.FP.Potential
import Verif.FP.RD
import Verif.FP.Tame
import Verif.Lemmas.ChordBelief
import Verif.Lemmas.ChordDict
import Verif.Lemmas.ChordExact
import Verif.Lemmas.ChordPath
import Verif.Lemmas.ChordRun
import Verif.Lemmas.ChordWhole
import Verif.Lemmas.ChromaBlock
import Verif.Lemmas.ChromaBound
import Verif.Lemmas.ChromaConv
import Verif.Lemmas.ChromaExact
import Verif.Lemmas.ChromaFrames
import Verif.Lemmas.ChromaLoop
import Verif.Lemmas.ChromaMap
import Verif.Lemmas.ChromaNotes
import Verif.Lemmas.ChromaReal
import Verif.Lemmas.ChromaRun
import Verif.Lemmas.ChromaScale
import Verif.Lemmas.ChromaTone
import Verif.Lemmas.ChromaTranscribe
import Verif.Lemmas.ChromaTune
import Verif.Lemmas.ChromaWhite
import Verif.Lemmas.ChromaWhole
import Verif.Lemmas.Chromagram
import Verif.Lemmas.Cosine
import Verif.Lemmas.Decided
import Verif.Lemmas.Detect
import Verif.Lemmas.HmmCtor
import Verif.Lemmas.Iso
import Verif.Lemmas.Maps
import Verif.Lemmas.NnlsBall
import Verif.Lemmas.NnlsFloat
import Verif.Lemmas.NnlsKkt
import Verif.Lemmas.NnlsOne
import Verif.Lemmas.NnlsOpt
import Verif.Lemmas.NnlsReal
import Verif.Lemmas.NnlsRun
import Verif.Lemmas.NnlsShape
import Verif.Lemmas.NnlsStep
import Verif.Lemmas.Opt
import Verif.Lemmas.OptEvolve
import Verif.Lemmas.PassageTable
import Verif.Lemmas.PassingTable
import Verif.Lemmas.PhraseCheck
import Verif.Lemmas.PhraseTable
import Verif.Lemmas.Select
import Verif.Lemmas.Viterbi
import Verif.Model.ChordPipeline
import Verif.Model.ChordViterbi
import Verif.Model.Chordino
import Verif.Model.Chromagram
import Verif.Model.Detect
import Verif.Model.DictFile
import Verif.Model.Extract
import Verif.Model.FPU
import Verif.Model.HMM
import Verif.Model.Key
import Verif.Model.KeyProfile
import Verif.Model.KeyTransition
import Verif.Model.Main
import Verif.Model.Midi
import Verif.Model.Nnls
import Verif.Model.NnlsChroma
import Verif.Model.Outputs
import Verif.Model.Pipeline
import Verif.Model.PitchClass
import Verif.Model.PluginLibrary
import Verif.Model.PluginParams
import Verif.Model.PyClassifier
import Verif.Model.PyDataset
import Verif.Model.PyEnsemble
import Verif.Model.PyFiles
import Verif.Model.PyLabels
import Verif.Model.PyOpt
import Verif.Model.PyScaling
import Verif.Model.PyTables
import Verif.Model.PyTrainer
import Verif.Model.PyWhole
import Verif.Model.Script
import Verif.Model.Search
import Verif.Model.ToolsConvert
import Verif.Model.ToolsCopy
import Verif.Model.ToolsCsv
import Verif.Model.ToolsFiles
import Verif.Model.ToolsMaps
import Verif.Model.ToolsShell
import Verif.Model.ToolsVerify
import Verif.Model.Tuning
import Verif.Model.ViterbiSTL
import Verif.Props.AgreeProps
import Verif.Props.AudioProps
import Verif.Props.AugmentProps
import Verif.Props.BackwardsProps
import Verif.Props.BoostProps
import Verif.Props.BoundProps
import Verif.Props.ChordListProps
import Verif.Props.ChordOrderProps
import Verif.Props.ChordParamProps
import Verif.Props.ChordReportProps
import Verif.Props.ChordRoundProps
import Verif.Props.ChordViterbiProps
import Verif.Props.ChordinoProps
import Verif.Props.ChromaMoveProps
import Verif.Props.ChromagramProps
import Verif.Props.ClassifierProps
import Verif.Props.ClosingProps
import Verif.Props.ContentProps
import Verif.Props.CustomProps
import Verif.Props.DatasetProps
import Verif.Props.DefaultProps
import Verif.Props.DescriptionProps
import Verif.Props.DetourProps
import Verif.Props.DictFileProps
import Verif.Props.DictOrderProps
import Verif.Props.EnsembleProps
import Verif.Props.ExcursionProps
import Verif.Props.ExerciseProps
import Verif.Props.ExtractProps
import Verif.Props.FilesProps
import Verif.Props.FormatProps
import Verif.Props.GaProps
import Verif.Props.GlobalKeyProps
import Verif.Props.HeldProps
import Verif.Props.KeyProps
import Verif.Props.KeyRoundProps
import Verif.Props.LabelProps
import Verif.Props.LevelFileProps
import Verif.Props.LoaderProps
import Verif.Props.MainProps
import Verif.Props.MalformedProps
import Verif.Props.MessageProps
import Verif.Props.MidiFileProps
import Verif.Props.MidiMoveProps
import Verif.Props.MidiProps
import Verif.Props.ModesProps
import Verif.Props.NamesProps
import Verif.Props.NearestKeyProps
import Verif.Props.NnlsBallProps
import Verif.Props.NnlsProps
import Verif.Props.OptDrawProps
import Verif.Props.OptProps
import Verif.Props.OutputOptionProps
import Verif.Props.OutputsProps
import Verif.Props.ParamEffectProps
import Verif.Props.PassageKeysProps
import Verif.Props.PassageProps
import Verif.Props.PassingProps
import Verif.Props.PhraseProps
import Verif.Props.PipelineProps
import Verif.Props.PitchClassProps
import Verif.Props.PluginParamsProps
import Verif.Props.PluginProps
import Verif.Props.ProfileProps
import Verif.Props.PyTablesProps
import Verif.Props.ReorderProps
import Verif.Props.RepeatProps
import Verif.Props.ScalingProps
import Verif.Props.ScalingPyProps
import Verif.Props.ScriptMoveProps
import Verif.Props.ScriptProps
import Verif.Props.SearchProps
import Verif.Props.SetUpAgainProps
import Verif.Props.SpectrumProps
import Verif.Props.SpellingProps
import Verif.Props.StruckProps
import Verif.Props.TableTextProps
import Verif.Props.TestFilesProps
import Verif.Props.ToolsConvertProps
import Verif.Props.ToolsCopyProps
import Verif.Props.ToolsCsvProps
import Verif.Props.ToolsFilesProps
import Verif.Props.ToolsMapsProps
import Verif.Props.ToolsShellProps
import Verif.Props.TrainerProps
import Verif.Props.TransitionProps
import Verif.Props.TransposeProps
import Verif.Props.TunesProps
import Verif.Props.TuningProps
import Verif.Props.TurnProps
import Verif.Props.TypedProps
import Verif.Props.UnitsProps
import Verif.Props.UserChordProps
import Verif.Props.VerifySplitsProps
import Verif.Props.ViterbiProps
import Verif.Props.ViterbiSTLProps
import Verif.Props.WhitenProps
import Verif.Props.WholeProps
import Verif.Spec.Description
import Verif.Spec.FPLaws
import Verif.Spec.Music
import Verif.Spec.Path
import Verif.Spec.Phrases
