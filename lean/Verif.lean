import Verif.Rng.Props
import Verif.Reservoir.Props
import Verif.Npz.Props
import Verif.Seq.Props
import Verif.Composite.Props
import Verif.Planner.Props
import Verif.Planner.Props28
import Verif.Planner.Props29
import Verif.Planner.Props30
import Verif.Prefetch.Props31
import Verif.Prefetch.Props32
import Verif.Sampler.Props
import Verif.Ckpt.Props
import Verif.Board.Props
import Verif.Export.Props
import Verif.LineEnc.Props56
import Verif.Forbid.Symmetry
import Verif.Telemetry.Props55
import Verif.Telemetry.Props58
import Verif.Telemetry.Props59
import Verif.Telemetry.Props60
import Verif.Telemetry.Props61
import Verif.Core.Props06
import Verif.Canon.Props07
import Verif.Stats.Props08d
import Verif.Eval.Props68b
import Verif.Utils.Props62
import Verif.Utils.Props63
import Verif.Utils.Props64
import Verif.Utils.Props66
import Verif.Utils.Props67
import Verif.Filter.Props65c
import Verif.Decode.Examples
import Verif.Total.Examples
import Verif.Loss.Examples
import Verif.Vq.Examples77
import Verif.Vq.Examples80
import Verif.Search.Examples81
import Verif.Train.Props82
import Verif.Ranks.Examples83
import Verif.Resume.Examples84
import Verif.Quant.Examples86
import Verif.Adam.Examples87
import Verif.Adam.Props88
import Verif.Katago.Examples
import Verif.Muon.Examples91
import Verif.Metric.Examples93
import Verif.Rotate.Examples94
import Verif.Link.Props95
import Verif.Log.Examples96
import Verif.Mapping.Props97
import Verif.Mapping.Examples97
import Verif.VqExport.Props98
import Verif.VqExport.Examples98
import Verif.Loss.Props99
import Verif.Loss.Examples99
import Verif.Sidecar.Props100
import Verif.Sidecar.Examples100
import Verif.Sidecar.Props101
import Verif.Sidecar.Examples101
import Verif.Pipe.Props102
import Verif.Pipe.Props102b
import Verif.Pipe.Props102c
import Verif.Pipe.Examples102
import Verif.Flat.Props103
import Verif.Flat.Props103b
import Verif.Flat.Props103c
import Verif.Flat.Props103d
import Verif.Flat.Examples103
import Verif.Collate.Props104
import Verif.Collate.Props104b
import Verif.Collate.Props104c
import Verif.Collate.Examples104
import Verif.Mix10.Props105
import Verif.Mix10.Props105b
import Verif.Mix10.Examples105
import Verif.Clip.Props106
import Verif.Collide.Props107
import Verif.Collide.Props107b
import Verif.Collide.Props107c
import Verif.Collide.Examples107
import Verif.Sidecar.Props108
import Verif.Sidecar.Props108b
import Verif.Sidecar.Examples108
import Verif.Schedule.Props109
import Verif.Schedule.Props109b
import Verif.Schedule.Examples109
import Verif.Weights.Props110
import Verif.Weights.Props110b
import Verif.Weights.Examples110
import Verif.Tuned.Props111
import Verif.Tuned.Examples111
import Verif.Norm.Props112
import Verif.Norm.Props112b
import Verif.Norm.Examples112
import Verif.Play.Props113
import Verif.Play.Props113b
import Verif.Play.Examples113
import Verif.Ckio.Props114
import Verif.Ckio.Examples114
import Verif.Files.Props115
import Verif.Files.Examples115
import Verif.Hash.Props116
import Verif.Hash.Examples116
import Verif.Regions.Props117
import Verif.Regions.Examples117
