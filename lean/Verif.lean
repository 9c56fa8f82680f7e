import Verif.Bins.Props
import Verif.Master.Props3
import Verif.Files.Props
import Verif.Coupling.Props6
import Verif.Covar.FilesProps
import Verif.Maps.Props
import Verif.Maps.NearestProps
import Verif.Flat.InterpProps
import Verif.Flat.MasterExample
import Verif.Flat.ApoProps
import Verif.Flat.PipelineProps
import Verif.Field.Props
import Verif.Field.CatalogProps
import Verif.Field.LiteProps
import Verif.Field.BiasProps
import Verif.Field.BiasExample
import Verif.Field.NoiseBias
import Verif.Field.NoiseBiasExample
import Verif.Par.Model
import Verif.Par.Lemmas
import Verif.Par.Props
import Verif.Par.Props2
import Verif.Par.Example
import Verif.Syn.Model
import Verif.Syn.Lemmas
import Verif.Syn.Formula
import Verif.Syn.Fft
import Verif.Syn.Props
import Verif.Syn.Wrong
import Verif.Syn.Interp
import Verif.Syn.Power
import Verif.Syn.Power2
import Verif.Syn.Power3
import Verif.Syn.PowerProps
import Verif.Syn.PowerExample
import Verif.Syn.PowerWrong
import Verif.Syn.Seeds
import Verif.Flat.FieldModel
import Verif.Flat.FieldExample
import Verif.Flat.FieldProps
import Verif.Flat.PurifyProps
import Verif.Flat.PurifyLemmas
import Verif.Flat.FieldDeproj
import Verif.Flat.FieldMasked
import Verif.Flat.BiasModel
import Verif.Flat.BiasCov
import Verif.Flat.BiasLemmas
import Verif.Flat.BiasProps
import Verif.Flat.CoupleModel
import Verif.Flat.CoupleLemmas
import Verif.Flat.CoupleProps
import Verif.Flat.CoupleWrong
import Verif.Flat.BiasExample
import Verif.Field.MaskedProps
import Verif.Flat.CovarModel
import Verif.Flat.CovarSpec
import Verif.Flat.CovarLemmas
import Verif.Flat.CovarProps
import Verif.Flat.CovarExample
import Verif.Flat.CovarExchange
import Verif.Flat.CovarNyquist
import Verif.Covar.InitModel
import Verif.Covar.InitProps
import Verif.Covar.InitExample
import Verif.Covar.SignProps
import Verif.Covar.SignExample
import Verif.Flat.FilesModel
import Verif.Flat.FilesLemmas
import Verif.Flat.FilesProps
import Verif.Flat.CovarFilesProps
import Verif.Maps.PoleProps
import Verif.Wigner.Spec
import Verif.Wigner.Racah
import Verif.Wigner.Recurrence
import Verif.Wigner.Orthogonal
import Verif.Wigner.Model
import Verif.Wigner.DrcLemmas
import Verif.Wigner.DrcLoops
import Verif.Wigner.DrcJoin
import Verif.Wigner.Symmetry
import Verif.Wigner.Bounds
import Verif.Wigner.Props
import Verif.Wigner.ZeroRow
import Verif.Wigner.Corollaries
import Verif.Wigner.SumRules
import Verif.Wigner.Dipole
import Verif.Mem.Heap
import Verif.Mem.Model
import Verif.Mem.Specs
import Verif.Mem.Use
import Verif.Mem.Session
import Verif.Mem.Invariant
import Verif.Mem.Props
import Verif.Mem.Examples
import Verif.Flat.PureMasterLemmas
import Verif.Flat.PureMasterProps
import Verif.Flat.PureMasterExample
import Verif.Wigner.RowNorm
import Verif.Sky.Spec
import Verif.Sky.Lemmas
import Verif.Sky.Mean
import Verif.Sky.Matrix
import Verif.Sky.Pure
import Verif.Sky.Workspace
import Verif.Sky.Props
import Verif.Sky.Example
import Verif.Sky.CatalogSpec
import Verif.Sky.CatalogModel
import Verif.Sky.CatalogLemmas
import Verif.Sky.CatalogProps
import Verif.Sky.CatalogExample
import Verif.Sky.AnisoSpec
import Verif.Sky.AnisoLemmas
import Verif.Sky.AnisoMatrix
import Verif.Sky.AnisoProps
import Verif.Sky.AnisoExample
import Verif.Sky.TemplLemmas
import Verif.Sky.TemplProps
import Verif.Sky.TemplExample
import Verif.Sky.Fkp
import Verif.Sky.FkpExample
import Verif.SkyCov.Spec
import Verif.SkyCov.Lemmas
import Verif.SkyCov.Decouple
import Verif.SkyCov.Knox
import Verif.SkyCov.Props
import Verif.SkyCov.Example
import Verif.SkyCov.NoiseSpec
import Verif.SkyCov.NoiseLemmas
import Verif.SkyCov.NoiseProps
import Verif.SkyCov.Noise
import Verif.SkyCov.NoiseExample
import Verif.Cluster.Spec
import Verif.Cluster.Props
import Verif.Cluster.Example
import Verif.MemFlat.Model
import Verif.MemFlat.Rules
import Verif.MemFlat.Specs
import Verif.MemFlat.Use
import Verif.MemFlat.Session
import Verif.MemFlat.Invariant
import Verif.MemFlat.Props
import Verif.MemFlat.Examples
import Verif.Units.Field
import Verif.Units.Matrix
import Verif.Units.Bias
import Verif.Units.Lemmas
import Verif.Units.Props
import Verif.Units.Covar
import Verif.Units.Example
import Verif.Angle.Field
import Verif.Angle.Spectra
import Verif.Angle.Matrix
import Verif.Angle.Props
import Verif.Angle.Example
import Verif.Sky.AnyModel
import Verif.Sky.AnyLemmas
import Verif.Sky.AnyProps
import Verif.Sky.AnyExample
import Verif.Sky.AnyWorkspace
import Verif.Symm.Field
import Verif.Symm.Spectra
import Verif.Symm.Matrix
import Verif.Symm.Props
import Verif.Symm.Example
import Verif.Flat.TableProps
import Verif.Flat.TableExample
import Verif.FlatSym.Field
import Verif.FlatSym.Props
import Verif.FlatSym.Example
import Verif.Teb.Lemmas
import Verif.Teb.Props
import Verif.Teb.Example
import Verif.FlatUnits.Field
import Verif.FlatUnits.Props
import Verif.FlatUnits.Example
import Verif.FlatTeb.Props
import Verif.FlatTeb.Example
import Verif.FlatAngle.Field
import Verif.FlatAngle.Spectra
import Verif.FlatAngle.Bias
import Verif.FlatAngle.Matrix
import Verif.FlatAngle.Props
import Verif.FlatAngle.Covar
import Verif.FlatAngle.CovarProps
import Verif.FlatAngle.Example
import Verif.Angle.Covar
import Verif.Angle.CovarExample
import Verif.Span.Spec
import Verif.Span.Lemmas
import Verif.Span.Bias
import Verif.Span.Props
import Verif.Span.Example
import Verif.Span.FlatSpec
import Verif.Span.FlatLemmas
import Verif.Span.FlatProps
import Verif.Span.FlatExample
