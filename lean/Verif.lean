import Verif.U128.Props
import Verif.U128.TextProps
import Verif.U128.FloatProps
import Verif.Conv.Props
import Verif.Str.SearchProps
import Verif.Str.TokenProps
import Verif.Str.CompareProps
import Verif.Str.CodecProps
import Verif.Uni.BytesProps
import Verif.Uni.DynProps
import Verif.Uni.FoldProps
import Verif.Uni.Props
import Verif.Alloc.StackProps
import Verif.Alloc.IdProps
import Verif.Alloc.GenProps
import Verif.Alloc.MonoProps
import Verif.Hash.Props
import Verif.Json.Props
import Verif.Json.EventProps
import Verif.Json.ValueProps
import Verif.Json.ExProps
import Verif.Json.ExTerm
import Verif.Json.ExNames
import Verif.Json.ExComments
import Verif.Json.ExConcat
import Verif.Json.ExDocProps
import Verif.Json.FlagsProps
import Verif.Json.FlagsUp
import Verif.Json.RealProps
import Verif.Util.FloatProps
import Verif.Bez.IeeeProps
import Verif.Pack.OccupancyProps
import Verif.Pack.GuilProps
import Verif.Pack.MaxProps
import Verif.Vec.Props
import Verif.Async.Props
import Verif.Xml.TextProps
import Verif.Xml.ReadProps
import Verif.Xml.AllocProps
import Verif.Xml.DocProps
import Verif.Cli.Props
import Verif.Util.Props
import Verif.View.Props
import Verif.Dbl.Props
import Verif.Dbl.PrintProps
import Verif.Fmt.Props
import Verif.Poly.Props
import Verif.Poly.Limit
import Verif.Poly.FloatProps
import Verif.Poly.ClipProps
import Verif.Res.Props
import Verif.Bez.Props
import Verif.File.Props
import Verif.File.MoveProps
import Verif.File.PathProps
import Verif.File.Utf8Props
import Verif.File.LineProps
import Verif.File.RoundProps
import Verif.Hash.OwnedProps
import Verif.Alloc.ObjectProps
import Verif.Async.MultiProps
import Verif.Lock.Props
import Verif.Dbl.FloatProps
