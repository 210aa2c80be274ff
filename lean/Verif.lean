import Verif.Common
import Verif.CommonLemmas
import Verif.Traj.Model
import Verif.Traj.MapLemmas
import Verif.Traj.IndexLemmas
import Verif.Traj.QueryLemmas
import Verif.Traj.IOLemmas
import Verif.Traj.Props
import Verif.MTraj.Model
import Verif.MTraj.Lemmas
import Verif.MTraj.ExplicitLemmas
import Verif.MTraj.Props
import Verif.Clusters.Model
import Verif.Clusters.Lemmas
import Verif.Clusters.Props
import Verif.Bonds.Model
import Verif.Bonds.Lemmas
import Verif.Bonds.Props
import Verif.RStar.Box
import Verif.RStar.Model
import Verif.RStar.Lemmas
import Verif.RStar.OpLemmas
import Verif.RStar.NestLemmas
import Verif.RStar.Heur
import Verif.RStar.Spec
import Verif.RStar.Props
import Verif.Index.Model
import Verif.Index.Lemmas
import Verif.Index.Props
import Verif.Particles.Model
import Verif.Particles.Lemmas
import Verif.Particles.OpLemmas
import Verif.Particles.Props
import Verif.Periodic.Lemmas
import Verif.Periodic.Props
import Verif.DynField.Model
import Verif.DynField.Lemmas
import Verif.DynField.Props
import Verif.Centers.Model
import Verif.Centers.Lemmas
import Verif.Centers.Props
import Verif.Recon.Model
import Verif.Recon.Lemmas
import Verif.Recon.GrowLemmas
import Verif.Recon.HistLemmas
import Verif.Recon.Props
import Verif.Boo.Model
import Verif.Boo.Lemmas
import Verif.Boo.WLemmas
import Verif.Boo.Wigner
import Verif.Boo.IoLemmas
import Verif.Boo.Props
import Verif.Boo.WProps
import Verif.Boo.IoProps
import Verif.Boo.FieldModel
import Verif.Boo.FieldLemmas
import Verif.Boo.FieldProps
import Verif.Files.Model
import Verif.Files.Lemmas
import Verif.Files.Props
import Verif.Dat.Model
import Verif.Dat.Props
import Verif.Rdf.Model
import Verif.Rdf.Props
import Verif.Rdf.DensityProps
import Verif.Dyn.Model
import Verif.Dyn.Lemmas
import Verif.Dyn.DriftProps
import Verif.Dyn.MsdLemmas
import Verif.Dyn.MsdProps
import Verif.Dyn.NgbProps
import Verif.Dyn.NgpProps
import Verif.Dyn.IsfProps
import Verif.Dyn.LinkProps
import Verif.Dyn.CageModel
import Verif.Dyn.CageLemmas
import Verif.Dyn.CageProps
import Verif.Dyn.AvgModel
import Verif.Dyn.AvgProps
import Verif.Octave.Model
import Verif.Octave.Model3
import Verif.Octave.Spec
import Verif.Octave.Lemmas
import Verif.Octave.CircLemmas
import Verif.Octave.Lemmas3
import Verif.Octave.Props
import Verif.Octave.Props3
import Verif.Octave.SubModel
import Verif.Octave.SubLemmas
import Verif.Octave.SubProps
import Verif.Octave.PyramidModel
import Verif.Octave.PyramidLemmas
import Verif.Octave.PyramidProps
import Verif.Octave.SizeProps
import Verif.Lif.Model
import Verif.Lif.Spec
import Verif.Lif.Lemmas
import Verif.Lif.HeaderLemmas
import Verif.Lif.Props
import Verif.Lif.SerieProps
import Verif.Lif.LocatorModel
import Verif.Lif.LocatorProps
import Verif.Deconv.Model
import Verif.Deconv.DftLemmas
import Verif.Deconv.LineLemmas
import Verif.Deconv.Props
import Verif.Deconv.SpectrumProps
import Verif.Volume.Model
import Verif.Volume.Props
import Verif.Boo.RotModel
import Verif.Boo.RotLemmas
import Verif.Boo.RotLoops
import Verif.Boo.RotBond
import Verif.Boo.RotGeom
import Verif.Boo.RotHalf
import Verif.Boo.RotProps
import Verif.Boo.RotProps2
import Verif.Boo.RotReflect
import Verif.Boo.FlipModel
import Verif.Boo.FlipProps
import Verif.Structure.Model
import Verif.Structure.Lemmas
import Verif.Structure.Props
import Verif.DynClusters.Model
import Verif.DynClusters.Lemmas
import Verif.DynClusters.TrackLemmas
import Verif.DynClusters.Props
import Verif.DynClusters.IOProps
import Verif.Tracker.StoreModel
import Verif.Tracker.StoreProps
import Verif.Tracker.MaskModel
import Verif.Tracker.MaskProps
import Verif.Tracker.PixelModel
import Verif.Tracker.PixelLemmas
import Verif.Tracker.PixelProps
import Verif.Tracker.CentroidModel
import Verif.Tracker.CentroidProps
import Verif.Tracker.SubPixelProps
import Verif.Tracker.ThresholdModel
import Verif.Tracker.ThresholdProps
import Verif.Tracker.RadiiModel
import Verif.Tracker.RadiiProps
import Verif.Tracker.RadiusProps
import Verif.Tracker.NamesModel
import Verif.Tracker.NamesProps
import Verif.Tracker.IterModel
import Verif.Tracker.IterProps
import Verif.Mains.RingModel
import Verif.Mains.RingProps
import Verif.Mains.FirstMinModel
import Verif.Mains.FirstMinProps
import Verif.Mains.VoroModel
import Verif.Mains.VoroBondProps
import Verif.Mains.VoroVolProps
import Verif.Mains.LostModel
import Verif.Mains.LostLemmas
import Verif.Mains.LostProps
import Verif.Mains.TauModel
import Verif.Mains.TauProps
import Verif.Mains.JumpProps
import Verif.Rdf.GlModel
import Verif.Rdf.GlProps
import Verif.Rdf.AngleModel
import Verif.Rdf.AngleProps
import Verif.Vtk.Model
import Verif.Vtk.Reader
import Verif.Vtk.Props
import Verif.Octave.SeamModel
import Verif.Octave.SeamProps
import Verif.Octave.KernelModel
import Verif.Octave.KernelProps
import Verif.Octave.RadiiModel
import Verif.Octave.RadiiProps
import Verif.Octave.Memory3Model
import Verif.Octave.Memory3Props
import Verif.Dyn.IsfWrapModel
import Verif.Dyn.IsfWrapProps
import Verif.Dyn.FileModel
import Verif.Dyn.FileProps
import Verif.Index.STModel
import Verif.Index.STProps
import Verif.Dyn.BooTimeModel
import Verif.Dyn.BooTimeProps
import Verif.Mains.G6Model
import Verif.Mains.G6Props
import Verif.Mains.BooModel
import Verif.Mains.BooProps
import Verif.Octave.Pyramid3Model
import Verif.Octave.Pyramid3Props
import Verif.Octave.LineModel
import Verif.Octave.LineProps
import Verif.Mains.AvposModel
import Verif.Mains.AvposProps
import Verif.Mains.SimModel
import Verif.Mains.SimProps
import Verif.Parallel.Model
import Verif.Parallel.Lemmas
import Verif.Parallel.Incr
import Verif.Parallel.BinnerModel
import Verif.Parallel.BinnerProps
import Verif.Parallel.FilmModel
import Verif.Parallel.FilmProps
import Verif.Parallel.PrivateModel
import Verif.Parallel.PrivateProps
import Verif.Parallel.SerieModel
import Verif.Parallel.SerieProps
import Verif.Parallel.PushModel
import Verif.Parallel.PushProps
import Verif.Mains.SeriesModel
import Verif.Mains.SeriesProps
import Verif.Mains.PercolationModel
import Verif.Mains.PercolationProps
import Verif.Mains.CutterModel
import Verif.Mains.CutterProps
import Verif.Mains.Dat2VtkModel
import Verif.Mains.Dat2VtkProps
import Verif.Mains.LinkerModel
import Verif.Mains.LinkerProps
import Verif.Rdf.PeriodicModel
import Verif.Mains.RdfProgModel
import Verif.Mains.RdfProgProps
import Verif.Mains.MultiscaleModel
import Verif.Mains.MultiscaleProps
import Verif.Mains.AllBondsModel
import Verif.Mains.AllBondsProps
import Verif.Py.LinkerModel
import Verif.Py.LinkerLemmas
import Verif.Py.LinkerAdd
import Verif.Py.LinkerUpdate
import Verif.Py.LinkerProps
import Verif.Py.PeriodicModel
import Verif.Py.PeriodicProps
import Verif.Py.StatModel
import Verif.Py.AverageProps
import Verif.Py.CorrelProps
import Verif.Py.RdfProps
import Verif.Mains.TrackerModel
import Verif.Mains.TrackerLemmas
import Verif.Mains.TrackerProps
import Verif.Py.BondsModel
import Verif.Py.BondsProps
import Verif.Py.NearestProps
import Verif.Py.OverlapProps
import Verif.Py.PlainRdfProps
import Verif.Py.GridModel
import Verif.Py.GridProps
import Verif.Py.LifModel
import Verif.Py.LifReaderProps
import Verif.Py.LifTimesProps
import Verif.Py.LifFrameProps
import Verif.Py.ExperimentModel
import Verif.Py.ExperimentFileProps
import Verif.Py.ExperimentTrajProps
import Verif.Py.ExperimentLoadProps
import Verif.Py.ExperimentDriftProps
import Verif.Py.ExperimentStatProps
import Verif.Py.TxpModel
import Verif.Py.TxpProps
import Verif.Py.TxpMsdProps
import Verif.Py.BrokenModel
import Verif.Py.BrokenProps
import Verif.Py.ReformProps
import Verif.Py.AroundProps
import Verif.Py.PeakModel
import Verif.Py.PeakProps
import Verif.Py.BooModel
import Verif.Py.BooProductProps
import Verif.Py.BooWlProps
import Verif.Py.BooYlmProps
import Verif.Py.BooQlmProps
import Verif.Py.BooCoarseProps
import Verif.Py.BooAgreeProps
import Verif.Py.BooCorrProps
import Verif.Py.PhaseModel
import Verif.Py.PhaseLogProps
import Verif.Py.PhaseVolProps
import Verif.Py.PhaseEosProps
import Verif.Py.PhaseMuProps
import Verif.Py.PhaseCritProps
import Verif.Py.PhaseTableProps
import Verif.Py.TrackBlurModel
import Verif.Py.TrackBlurLemmas
import Verif.Py.TrackBlurProps
import Verif.Py.TrackRescaleProps
import Verif.Py.TrackIntensityProps
import Verif.Py.TrackDrawModel
import Verif.Py.TrackDrawProps
import Verif.Py.TrackClusterProps
import Verif.Py.TrackFindModel
import Verif.Py.TrackPeakProps
import Verif.Py.TrackOctaveProps
import Verif.Py.TrackMultiModel
import Verif.Py.TrackMultiProps
import Verif.Py.MicroModel
import Verif.Py.MicroProps
import Verif.Py.MicroLogProps
import Verif.Py.PhaseCorModel
import Verif.Py.PhaseCorProps
import Verif.Py.PhaseCorWinProps
import Verif.Py.DdmModel
import Verif.Py.DdmProps
import Verif.Py.DdmRadialProps
import Verif.Py.VoroModel
import Verif.Py.VoroProps
import Verif.Py.VtkModel
import Verif.Py.VtkProps
import Verif.Py.VtkFileProps
import Verif.Py.VtkCorProps
import Verif.Py.LifeModel
import Verif.Py.LifeProps
import Verif.Py.LifeSelProps
import Verif.Py.LifeCorrProps
import Verif.Py.StatHistModel
import Verif.Py.StatHistProps
import Verif.Py.StatSpaceProps
import Verif.Py.StatFactorProps
import Verif.Py.FollowModel
import Verif.Py.FollowProps
import Verif.Py.FollowVtkProps
import Verif.Mains.T2vModel
import Verif.Mains.T2vProps
import Verif.Py.PairModel
import Verif.Py.PairProps
import Verif.Py.PairRdfProps
import Verif.Py.SqModel
import Verif.Py.SqProps
import Verif.Py.SqRectProps
import Verif.Py.SqWindowProps
import Verif.Py.PboxModel
import Verif.Py.PboxProps
import Verif.Py.PboxNgbProps
import Verif.Py.PboxNgpProps
import Verif.Py.BrownModel
import Verif.Py.BrownProps
import Verif.Dyn.ExportModel
import Verif.Dyn.ExportProps
import Verif.Py.LinkSaveModel
import Verif.Py.LinkSaveProps
import Verif.Py.VolModel
import Verif.Py.VolProps
import Verif.Py.PisfModel
import Verif.Py.PisfProps
import Verif.Py.LocalModel
import Verif.Py.LocalProps
import Verif.Py.BlobModel
import Verif.Py.BlobProps
import Verif.Py.GridVtkModel
import Verif.Py.GridVtkProps
import Verif.Py.BarModel
import Verif.Py.BarProps
import Verif.Mains.VoroReadModel
import Verif.Mains.VoroReadProps
import Verif.Mains.CloudModel
import Verif.Mains.CloudProps
import Verif.Mains.BooNamesModel
import Verif.Mains.BooNamesProps
import Verif.Py.VoroFileProps
import Verif.Mains.BooSerieProps
import Verif.Py.ColorProps
import Verif.Py.PilesProps
import Verif.Py.RadiusProps
import Verif.Py.LifDisplProps
import Verif.Py.LoadPilesProps
import Verif.Py.ClusterSizeProps
import Verif.Py.DropletModel
import Verif.Py.DropletProps
import Verif.Py.PilesCuts
import Verif.Py.PovModel
import Verif.Py.PovProps
import Verif.Py.ImSeriesModel
import Verif.Py.ImSeriesProps
import Verif.Py.EnvelopeModel
import Verif.Py.EnvelopeProps
import Verif.Py.NbModel
import Verif.Py.NbProps
import Verif.Py.CloudSetsModel
import Verif.Py.CloudSetsProps
import Verif.Py.VtkImageModel
import Verif.Py.VtkImageProps
import Verif.Py.AgeingModel
import Verif.Py.AgeingProps
import Verif.Py.CommandsModel
import Verif.Py.CommandsProps
import Verif.Py.GuessModel
import Verif.Py.GuessProps
import Verif.Py.G6MeanModel
import Verif.Py.G6MeanProps
import Verif.Py.EnvTotalModel
import Verif.Py.EnvTotalProps
