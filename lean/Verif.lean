import Verif.Aggregator.Model
import Verif.Aggregator.Props
import Verif.Aggregator.Spec
import Verif.Assert.Model
import Verif.Assert.Props
import Verif.AsyncGen.Lemmas
import Verif.AsyncGen.Model
import Verif.AsyncGen.Props
import Verif.AsyncGen.Spec
import Verif.BitMap.Model
import Verif.BitMap.Props
import Verif.BitMap.Spec
import Verif.Combinator.Model
import Verif.Combinator.Props
import Verif.Combinator.Spec
import Verif.Common.Order
import Verif.Common.Res
import Verif.Compare.Lemmas
import Verif.Compare.Model
import Verif.Compare.Props
import Verif.Compare.Spec
import Verif.CondVar.Inv
import Verif.CondVar.Inv2
import Verif.CondVar.Lemmas
import Verif.CondVar.Model
import Verif.CondVar.PlainLemmas
import Verif.CondVar.PlainModel
import Verif.CondVar.PlainProps
import Verif.CondVar.Props
import Verif.Convert.Model
import Verif.Convert.OptModel
import Verif.Convert.OptProps
import Verif.Convert.Props
import Verif.Convert.WinModel
import Verif.Convert.WinProps
import Verif.Coro.Check
import Verif.Coro.Evo
import Verif.Coro.GetLemmas
import Verif.Coro.GetModel
import Verif.Coro.GetProps
import Verif.Coro.GetSpec
import Verif.Coro.Inv
import Verif.Coro.Leak
import Verif.Coro.LogInv
import Verif.Coro.Main
import Verif.Coro.Model
import Verif.Coro.Props
import Verif.Coro.Spec
import Verif.Coro.Steps
import Verif.Crc64.Lemmas
import Verif.Crc64.Model
import Verif.Crc64.Poly
import Verif.Crc64.Props
import Verif.Crc64.Spec
import Verif.Decimal.BalanceModel
import Verif.Decimal.BalanceProps
import Verif.Decimal.BalanceSpec
import Verif.Decimal.FormulaModel
import Verif.Decimal.FormulaProps
import Verif.Decimal.FormulaSpec
import Verif.Decimal.Lemmas
import Verif.Decimal.Model
import Verif.Decimal.Props
import Verif.Decimal.Spec
import Verif.Decimal.Text
import Verif.Destructible.Model
import Verif.Destructible.Props
import Verif.Destructible.Spec
import Verif.Double.IntModel
import Verif.Double.IntProps
import Verif.Double.Model
import Verif.Double.Props
import Verif.Double.Round
import Verif.File.Lemmas
import Verif.File.Model
import Verif.File.OpenCall
import Verif.File.OpenFrame
import Verif.File.OpenLemmas
import Verif.File.OpenModel
import Verif.File.OpenProps
import Verif.File.Props
import Verif.File.WinModel
import Verif.File.WinProps
import Verif.FixedMem.ArenaModel
import Verif.FixedMem.ArenaProps
import Verif.FixedMem.ArenaSpec
import Verif.FixedMem.Lemmas
import Verif.FixedMem.Model
import Verif.FixedMem.Props
import Verif.FixedMem.Spec
import Verif.FixedStr.Model
import Verif.FixedStr.Props
import Verif.ForeignSet.DetachProps
import Verif.ForeignSet.Lemmas
import Verif.ForeignSet.Model
import Verif.ForeignSet.MovesLemmas
import Verif.ForeignSet.MovesModel
import Verif.ForeignSet.MovesProps
import Verif.ForeignSet.Props
import Verif.ForeignSet.ThrowLemmas
import Verif.ForeignSet.ThrowModel
import Verif.ForeignSet.ThrowProps
import Verif.ForeignSet.ThrowSpec
import Verif.ForeignSet.WatchLemmas
import Verif.ForeignSet.WatchModel
import Verif.ForeignSet.WatchProps
import Verif.ForeignSet.WatchSpec
import Verif.Fp.AngleLemmas
import Verif.Fp.AngleProps
import Verif.Fp.Lemmas
import Verif.Fp.Model
import Verif.Fp.Props
import Verif.Fp.Round
import Verif.Fp.WatchLemmas
import Verif.Fp.WatchProps
import Verif.Generator.Lemmas
import Verif.Generator.Model
import Verif.Generator.Props
import Verif.Generator.Spec
import Verif.Graph.Model
import Verif.Graph.Props
import Verif.Graph.Spec
import Verif.Guard.Lemmas
import Verif.Guard.Model
import Verif.Guard.Props
import Verif.Guard.Spec
import Verif.HashCrc.Props
import Verif.HashStream.Decode
import Verif.HashStream.Lemmas
import Verif.HashStream.Model
import Verif.HashStream.Props
import Verif.HashStream.Spec
import Verif.HashStream.Write
import Verif.IntArray.Model
import Verif.IntArray.Props
import Verif.IntRange.Model
import Verif.IntRange.Props
import Verif.IntervalMap.IterModel
import Verif.IntervalMap.IterProps
import Verif.IntervalMap.Lemmas
import Verif.IntervalMap.Model
import Verif.IntervalMap.Props
import Verif.IntervalMap.RefModel
import Verif.IntervalMap.RefProps
import Verif.IntervalMap.Spec
import Verif.IntervalMap.ThrowLemmas
import Verif.IntervalMap.ThrowModel
import Verif.IntervalMap.ThrowProps
import Verif.IntervalMap.ThrowSpec
import Verif.IoMsg.Lemmas
import Verif.IoMsg.Model
import Verif.IoMsg.Props
import Verif.IoMsg.Spec
import Verif.JThread.Lemmas
import Verif.JThread.Model
import Verif.JThread.Props
import Verif.Log.Model
import Verif.Log.Props
import Verif.Log.Spec
import Verif.Math.Model
import Verif.Math.Props
import Verif.Memberwise.Model
import Verif.Memberwise.Props
import Verif.Mp.BackLemmas
import Verif.Mp.BackModel
import Verif.Mp.BackProps
import Verif.Mp.BackSpec
import Verif.Mp.Collect
import Verif.Mp.Evolution
import Verif.Mp.EvolutionLemmas
import Verif.Mp.EvolutionProps
import Verif.Mp.Model
import Verif.Mp.Names
import Verif.Mp.Props
import Verif.Mp.Tables
import Verif.Mp.Usable
import Verif.Mp.ValueLemmas
import Verif.Mp.Values
import Verif.Mp.ViaLemmas
import Verif.Mp.ViaProps
import Verif.Mp.ViaSpec
import Verif.MpDec.Lemmas
import Verif.MpDec.Model
import Verif.MpDec.Props
import Verif.Multiprec.DecData
import Verif.Multiprec.DecProps
import Verif.Multiprec.ExpProps
import Verif.Multiprec.Model
import Verif.Multiprec.Props
import Verif.ObjectPool.FinLemmas
import Verif.ObjectPool.FinModel
import Verif.ObjectPool.FinProps
import Verif.ObjectPool.Model
import Verif.ObjectPool.Props
import Verif.ObjectPool.Spec
import Verif.Observable.Lemmas
import Verif.Observable.Model
import Verif.Observable.Props
import Verif.Observable.Spec
import Verif.ObservableSet.DetachProps
import Verif.ObservableSet.Lemmas
import Verif.ObservableSet.Mirror
import Verif.ObservableSet.MirrorsModel
import Verif.ObservableSet.MirrorsProps
import Verif.ObservableSet.Model
import Verif.ObservableSet.Props
import Verif.ObservableSet.ReentModel
import Verif.ObservableSet.ReentProps
import Verif.ObservableSet.Spec
import Verif.ObservableSet.ThrowLemmas
import Verif.ObservableSet.ThrowModel
import Verif.ObservableSet.ThrowProps
import Verif.ObservableSet.World
import Verif.QueueMem.LeakProps
import Verif.QueueMem.Lemmas
import Verif.QueueMem.Model
import Verif.QueueMem.Props
import Verif.QuickList.IterLemmas
import Verif.QuickList.IterModel
import Verif.QuickList.IterProps
import Verif.QuickList.Lemmas
import Verif.QuickList.Model
import Verif.QuickList.Props
import Verif.QuickList.Rep
import Verif.QuickList.Spec
import Verif.QuickList.Splice
import Verif.QuickList.StepLemmas
import Verif.Ring.Lemmas
import Verif.Ring.Model
import Verif.Ring.Props
import Verif.Ring.PtrProps
import Verif.Ring.Spec
import Verif.Ring.ThrowLemmas
import Verif.Ring.ThrowModel
import Verif.Ring.ThrowProps
import Verif.Ring.ThrowSpec
import Verif.Serialize.Lemmas
import Verif.Serialize.LimitProps
import Verif.Serialize.Model
import Verif.Serialize.Props
import Verif.Serialize.RoundTrip
import Verif.Serialize.Safety
import Verif.Serialize.Spec
import Verif.Serialize.TimeCut
import Verif.Serialize.TimeProps
import Verif.Serialize.Undefined
import Verif.Settings.DiskKeep
import Verif.Settings.DiskLemmas
import Verif.Settings.DiskModel
import Verif.Settings.DiskProps
import Verif.Settings.DiskSpec
import Verif.Settings.Lemmas
import Verif.Settings.Model
import Verif.Settings.Props
import Verif.SharedHandle.Model
import Verif.SharedHandle.Props
import Verif.Show.Model
import Verif.Show.Props
import Verif.Show.Spec
import Verif.Single.Model
import Verif.Single.Props
import Verif.Single.Round
import Verif.SingleList.Lemmas
import Verif.SingleList.Model
import Verif.SingleList.Props
import Verif.SingleList.Spec
import Verif.Singleton.Model
import Verif.Singleton.Props
import Verif.Singleton.RaceProps
import Verif.Sleep.Inv
import Verif.Sleep.ManyModel
import Verif.Sleep.ManyProps
import Verif.Sleep.ManySim
import Verif.Sleep.Model
import Verif.Sleep.Props
import Verif.StaticChain.Model
import Verif.StaticChain.Props
import Verif.StdStream.Model
import Verif.StdStream.Props
import Verif.Stop.Inv
import Verif.Stop.Inv2
import Verif.Stop.Inv3
import Verif.Stop.Log
import Verif.Stop.Log2
import Verif.Stop.Main
import Verif.Stop.Model
import Verif.Stop.Props
import Verif.Stop.Spec
import Verif.Stop.Trans
import Verif.StopCount.HandleCan
import Verif.StopCount.HandleLemmas
import Verif.StopCount.HandleLive
import Verif.StopCount.HandleModel
import Verif.StopCount.HandleProps
import Verif.StopCount.HandleSpec
import Verif.StopCount.HandleStep
import Verif.StopCount.Inv
import Verif.StopCount.Model
import Verif.StopCount.Props
import Verif.StopWatch.Model
import Verif.StopWatch.Props
import Verif.Storage.ConcLemmas
import Verif.Storage.ConcModel
import Verif.Storage.ConcProps
import Verif.Storage.ConcSpec
import Verif.Storage.Lemmas
import Verif.Storage.Model
import Verif.Storage.Props
import Verif.Storage.Spec
import Verif.StorageFmt.Damage
import Verif.StorageFmt.IoOnly
import Verif.StorageFmt.Lemmas
import Verif.StorageFmt.Model
import Verif.StorageFmt.Props
import Verif.StorageFmt.Spec
import Verif.StorageFmt.Trailing
import Verif.StorageFmt.Unreadable
import Verif.StorageMove.Lemmas
import Verif.StorageMove.Model
import Verif.StorageMove.Props
import Verif.StorageMove.Spec
import Verif.Testing.AttrModel
import Verif.Testing.AttrProps
import Verif.Testing.ListModel
import Verif.Testing.ListProps
import Verif.Testing.Model
import Verif.Testing.OutModel
import Verif.Testing.OutProps
import Verif.Testing.Props
import Verif.Testing.RefuseProps
import Verif.Testing.Spec
import Verif.Text.EnumMsgModel
import Verif.Text.EnumMsgProps
import Verif.Text.Model
import Verif.Text.Props
import Verif.Text.ReflectModel
import Verif.Text.ReflectProps
import Verif.Text.ReflectSpec
import Verif.Text.Spec
import Verif.Time.Model
import Verif.Time.Props
import Verif.TimeQueue.Model
import Verif.TimeQueue.Props
import Verif.Traits.Model
import Verif.Traits.Props
import Verif.Tuples.Lemmas
import Verif.Tuples.Model
import Verif.Tuples.OrderProps
import Verif.Tuples.Props
import Verif.Tuples.Spec
import Verif.TypeIndex.Model
import Verif.TypeIndex.Props
import Verif.TypeMap.Lemmas
import Verif.TypeMap.Model
import Verif.TypeMap.Props
import Verif.TypeMap.Spec
import Verif.UpdateQueue.Lemmas
import Verif.UpdateQueue.Model
import Verif.UpdateQueue.Props
import Verif.UpdateQueue.Safety
import Verif.UpdateQueue.Spec
import Verif.UpdateQueue.Step
import Verif.UpdateQueue.Trace
import Verif.Upgrade.Lemmas
import Verif.Upgrade.Props
import Verif.Upgrade.Spec
import Verif.VectorSet.AllocLemmas
import Verif.VectorSet.AllocModel
import Verif.VectorSet.AllocProps
import Verif.VectorSet.Balance
import Verif.VectorSet.BalanceProps
import Verif.VectorSet.Basic
import Verif.VectorSet.ChangeModel
import Verif.VectorSet.ChangeProps
import Verif.VectorSet.CompModel
import Verif.VectorSet.CompProps
import Verif.VectorSet.CompSpec
import Verif.VectorSet.FindLemmas
import Verif.VectorSet.InsertLemmas
import Verif.VectorSet.Inv
import Verif.VectorSet.Model
import Verif.VectorSet.Props
import Verif.VectorSet.PtrErase
import Verif.VectorSet.PtrFind
import Verif.VectorSet.PtrInsert
import Verif.VectorSet.PtrModel
import Verif.VectorSet.PtrNew
import Verif.VectorSet.PtrProps
import Verif.VectorSet.PtrRemove
import Verif.VectorSet.PtrRep
import Verif.VectorSet.PtrReplace
import Verif.VectorSet.PtrRotate
import Verif.VectorSet.PtrSet
import Verif.VectorSet.PtrStep
import Verif.VectorSet.PtrThrow
import Verif.VectorSet.PtrThrowModel
import Verif.VectorSet.PtrThrowProps
import Verif.VectorSet.PtrThrowSpec
import Verif.VectorSet.PtrThrowStep
import Verif.VectorSet.RemoveLemmas
import Verif.VectorSet.Spec
import Verif.VectorSet.StepLemmas
import Verif.Vts.ArbProps
import Verif.Vts.Arbitrary
import Verif.Vts.Convert
import Verif.Vts.EmptyProps
import Verif.Vts.Failure
import Verif.Vts.Lemmas
import Verif.Vts.Main
import Verif.Vts.Meta
import Verif.Vts.Mismatch
import Verif.Vts.Model
import Verif.Vts.PlainModel
import Verif.Vts.PlainProps
import Verif.Vts.Props
import Verif.Vts.ReaderModel
import Verif.Vts.ReaderProps
import Verif.Vts.ReaderSpec
import Verif.Vts.Same
import Verif.Vts.Sound
import Verif.Vts.Spec
import Verif.Vts.Tested
import Verif.Vts.VersionProps
import Verif.WatchDog.Model
import Verif.WatchDog.Props
import Verif.WatchDog.Slow
