import Verif.Go
import Verif.Digits
import Verif.Conv.Props
import Verif.Conv.TextFailProps
import Verif.Conv.FloatProps
import Verif.Conv.BitsModel
import Verif.Conv.BitsProps
import Verif.MathInt.Props
import Verif.Iter.Props
import Verif.Stream.Props
import Verif.Stream.ErrProps
import Verif.Stream.ParProps
import Verif.Stream.ParFloatModel
import Verif.Stream.ParFloatProps
import Verif.Stream.ParExactProps
import Verif.Funcs.Props
import Verif.Funcs.MapProps
import Verif.Union.Props
import Verif.IO.Props
import Verif.Json.Props
import Verif.Json.RoundProps
import Verif.Json.ValueProps
import Verif.Rest.Props
import Verif.Code.Props
import Verif.Decimal.Props
import Verif.Decimal.CmpProps
import Verif.Decimal.AddProps
import Verif.Decimal.MulProps
import Verif.Decimal.MulExactLemmas
import Verif.Decimal.MulExactProps
import Verif.Decimal.DivIntProps
import Verif.Decimal.DivProps
import Verif.MathInt.CmpProps
import Verif.MathInt.NamedProps
import Verif.Conv.CopyProps
import Verif.Conv.DispatchProps
import Verif.Reflect.Props
import Verif.Reflect.MaybeProps
import Verif.Strukt.Props
import Verif.Conv.TextProps
import Verif.Conv.RatCopyProps
import Verif.MathInt.BigDivProps
import Verif.Stream.BigProps
import Verif.Json.AccProps
import Verif.Funcs.SliceProps
import Verif.Event.Props
import Verif.Event.RemoveLemmas
import Verif.Event.RemoveProps
import Verif.Iter.WrapProps
import Verif.Rest.ContentProps
import Verif.Funcs.BaseProps
import Verif.Funcs.CacheProps
import Verif.Must.Props
import Verif.Decimal.SharpProps
import Verif.Decimal.DivExactProps
import Verif.Decimal.DivOneProps
import Verif.Conv.SharpProps
import Verif.Iter.LineProps
import Verif.Iter.ReaderProps
import Verif.Iter.ChunkProps
import Verif.Stream.SharpProps
import Verif.Funcs.SharpProps
import Verif.Stream.EndlessProps
import Verif.Stream.AlgebraProps
import Verif.Stream.ConcatProps
import Verif.Must.MoreProps
import Verif.MathInt.RangeProps
import Verif.MathInt.InPlaceProps
import Verif.Conv.ToProps
import Verif.Stream.FloatProps
import Verif.Conv.NilProps
import Verif.Decimal.AlgProps
import Verif.Decimal.OneProps
import Verif.Decimal.DivAlgProps
import Verif.Json.HeapProps
import Verif.MathInt.FloatDivProps
import Verif.Rest.CopyProps
import Verif.Iter.MemProps
import Verif.MathInt.FloatOpProps
import Verif.Stream.ShareProps
import Verif.Funcs.HistoryProps
import Verif.Funcs.FloatKeyProps
import Verif.Conv.TextTargetProps
import Verif.Conv.FormatProps
import Verif.Json.NumberTextProps
import Verif.Json.CodeProps
import Verif.Regex.Props
import Verif.IO.MemProps
import Verif.Funcs.FlattenProps
import Verif.Funcs.NameProps
import Verif.Code.BaseProps
import Verif.Tuple.Props
import Verif.Decimal.AddExact
import Verif.Decimal.MonoProps
import Verif.Decimal.RoundTrip
import Verif.Json.AccExact
import Verif.MathInt.CmpFloat
import Verif.Funcs.SortRank
import Verif.Code.FileModel
import Verif.Code.FileProps
import Verif.Regex.SyntaxModel
import Verif.Regex.SyntaxProps
import Verif.Json.TripProps
import Verif.Funcs.TryProps
import Verif.Stream.CrashProps
import Verif.Stream.AvgCrashProps
import Verif.Stream.ExpandCrashProps
import Verif.Stream.ParCrashProps
import Verif.Regex.RoundProps
import Verif.Regex.LazyLemmas
import Verif.Regex.LazyProps
import Verif.Regex.EmptyProps
import Verif.Event.CrashProps
import Verif.Stream.RaceProps
import Verif.Stream.GenRaceProps
import Verif.Rest.ConcProps
import Verif.Event.ConcProps
import Verif.Json.PipeProps
import Verif.Json.PipeIffProps
import Verif.Conv.MsgModel
import Verif.Conv.MsgProps
import Verif.IO.CutProps
import Verif.Json.CutProps
import Verif.Iter.CsvModel
import Verif.Iter.CsvSpec
import Verif.Iter.CsvLemmas
import Verif.Iter.CsvProps
import Verif.Rest.CsvProps
import Verif.Json.CutIterLemmas
import Verif.Json.CutIterProps
import Verif.Rest.CutProps
import Verif.Conv.FormatWitness
import Verif.Iter.CsvFailModel
import Verif.Iter.CsvFailLemmas
import Verif.Iter.CsvFailProps
import Verif.Rest.CsvFailProps
import Verif.IO.NilModel
import Verif.IO.NilProps
