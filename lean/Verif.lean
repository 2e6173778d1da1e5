import Verif.Props.TileID
import Verif.Props.TileStr
import Verif.Props.TileGeo
import Verif.Props.Sprite
import Verif.Props.StyleFile
import Verif.Props.MvtGeom
import Verif.Props.MvtLayer
import Verif.Props.MvtRead
import Verif.Props.MvtClip
import Verif.Props.MvtClipFeature
import Verif.Props.MvtReduce
import Verif.Props.Raster
import Verif.Props.RasterFloat
import Verif.Props.Mbtiles
import Verif.Props.StyleZoom
import Verif.Props.StyleColor
import Verif.Props.StyleFilter
import Verif.Props.StyleHsl
import Verif.Props.Font
import Verif.Props.FontBuilder
import Verif.Props.Client
import Verif.Props.TilePip
import Verif.Props.TileCover
import Verif.Props.TileCoverLong
import Verif.Props.MvtProject
import Verif.Props.TileJson
import Verif.Props.MvtWire
import Verif.Props.MvtHang
import Verif.Props.RasterImage
import Verif.Props.MvtAreaFeature
import Verif.Props.StyleParse
import Verif.Props.MbtilesFile
import Verif.Props.MvtLonLat
import Verif.Props.TileDist
import Verif.Props.TileFloat
import Verif.Props.TileFloatMore
import Verif.Model.TileFloatMore
import Verif.Props.MvtFloat
import Verif.Props.MvtTileFloat
import Verif.Model.MvtBulkLonLat
import Verif.Props.MvtBulkLonLat
import Verif.Props.MvtBulkFloat
import Verif.Props.MvtDefaults
import Verif.Props.Numeral
import Verif.Props.MbtilesMeta
import Verif.Props.MbtilesBad
import Verif.Props.MbtilesIeee
import Verif.Props.MvtResult
import Verif.Props.MvtResultWire
import Verif.Props.MvtLineFeature
import Verif.Props.SpriteScale
import Verif.Props.MvtClipFloat
import Verif.Props.MvtAlias
import Verif.Props.FontFloat
import Verif.Props.TilePipFloat
import Verif.Props.TileCoverFloat
import Verif.Props.TileCoverMeridian
import Verif.Props.MvtReduceFloat
import Verif.Props.TileCoverSlanted
import Verif.Props.StyleFileParse
import Verif.Props.TileCoverAll
import Verif.Props.TileCoverAlias
import Verif.Props.MvtFar
import Verif.Props.Library
import Verif.Model.FontPbf
import Verif.Spec.FontPbf
import Verif.Proof.FontPbf
import Verif.Props.FontPbf
import Verif.Props.Doc
import Verif.Props.DocForms
import Verif.Spec.DocWrite
import Verif.Props.DocWrite
import Verif.Model.JsonText
import Verif.Spec.JsonText
import Verif.Spec.JsonDoc
import Verif.Proof.JsonText
import Verif.Proof.JsonDoc
import Verif.Props.JsonText
import Verif.Spec.DocTime
import Verif.Spec.DocRead
import Verif.Proof.DocRead
import Verif.Props.DocRead
import Verif.Props.StyleText
import Verif.Props.JsonBytes
import Verif.Model.ClientSession
import Verif.Spec.ClientSession
import Verif.Props.ClientSession
import Verif.Model.SpriteJson
import Verif.Props.SpriteJson
import Verif.Model.FontDraw
import Verif.Props.FontDraw
import Verif.Model.UrlParse
import Verif.Spec.UrlParse
import Verif.Props.UrlParse
import Verif.Model.MvtClipProps
import Verif.Spec.MvtClipProps
import Verif.Props.MvtClipProps
import Verif.Model.TileDistFloat
import Verif.Spec.TileDistFloat
import Verif.Proof.TileDistFloat
import Verif.Props.TileDistFloat
