import Verif.Sampler.Props33
import Verif.Sampler.Props34
import Verif.Sampler.Props35
