import Verif.Stat.Plat
import Verif.Stat.Percentile
import Verif.Stat.Merge
