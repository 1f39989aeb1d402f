import Verif.Ckpt.Props38
import Verif.Ckpt.Props39
import Verif.Ckpt.Props40
import Verif.Ckpt.Props41
import Verif.Ckpt.Props42
