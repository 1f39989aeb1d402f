import Verif.Board.Props44
import Verif.Board.Props46
import Verif.Board.Props47
import Verif.Board.Props48
import Verif.Board.Props49
import Verif.Board.Props50
