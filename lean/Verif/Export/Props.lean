import Verif.Export.Props51
import Verif.Export.Props52
import Verif.Export.Props53
import Verif.Export.Props54
import Verif.Export.Props71
import Verif.Export.Props72
