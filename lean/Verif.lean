import Verif.Axmap.Props
import Verif.Lfsr.Props
import Verif.Fifo.Props
import Verif.IouQueue.Props
import Verif.Bloom.Props
import Verif.ListSort.Props
import Verif.Rand.Props
import Verif.Dist.Props
import Verif.Flow.Props
import Verif.Filelock.Props
import Verif.Steady.Props
import Verif.Stat.Props
import Verif.Num2str.Props
import Verif.Crc.Props
import Verif.Pattern.Props
import Verif.Verify.Props
import Verif.VState.Race
import Verif.RbTree.Props
import Verif.IoLog.Props
import Verif.Smalloc.Props
import Verif.Zbd.Props
import Verif.Zbd.AdjustProps
import Verif.IoGen.Props
import Verif.Net.Props
import Verif.Overlap.Props
import Verif.Workq.Props
import Verif.Clock.Props
import Verif.Ramp.Group
import Verif.Parse.List
import Verif.Json.Props
import Verif.Json.Buf
import Verif.Hash.Props
import Verif.IoU.Props
import Verif.Fp.Props
import Verif.Buf.Props
import Verif.ZDist.Props
import Verif.Rate.Props
import Verif.Log.Props
import Verif.LogAvg.Props
import Verif.LatTarget.Props
import Verif.Sem.Props
import Verif.Rusage.Props
import Verif.Xx.Props
import Verif.Files.Counter
import Verif.Jobs.Counter
import Verif.Setup.Layout
import Verif.Amount.Props
import Verif.Nvme.Props
import Verif.Nvme.CmdProps
import Verif.Replay.ChunkEx
import Verif.Split.Range
import Verif.Ddir.Ex
import Verif.Dedupe.Ex
import Verif.SyncEng.Props
import Verif.Vsync.Ex
import Verif.Libaio.Ex
import Verif.Cmdprio.Ex
import Verif.Uring.Ex
import Verif.Sqe.Ex
import Verif.Mmap.Ex
import Verif.VAsync.Ex
import Verif.Dp.Ex
import Verif.Spr.Ex
import Verif.Ini.Ex
import Verif.Sub.Ex
import Verif.Sg.Ex
import Verif.Think.Ex
import Verif.Seq.Ex
import Verif.Du.Ex
import Verif.TsNet.Ex
import Verif.Smalloc.MultiProps
import Verif.Mtrim.Props
import Verif.Blkmerge.Props
import Verif.Blkreplay.Props
import Verif.Cconv.Props
import Verif.NetLog.Props
import Verif.LockFile.Props
import Verif.Report.Props
import Verif.PrioStat.Props
import Verif.AllClients.Props
import Verif.Eta.Props
import Verif.RunStr.Props
import Verif.Timers.Props
import Verif.NullEng.Props
import Verif.PosixAio.Props
import Verif.WMode.Props
import Verif.SkOut.Props
import Verif.Splice.Props
