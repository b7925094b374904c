import Verif.Model.Basic
import Verif.Model.Lib.Enc

/-!
Model of `lib/mime.c`.
-/
namespace Che.Lib.Mime
open Che.Lib

/-- `table`, lib/mime.c:4-79, without the row of nulls at its end. -/
def table : List (Bytes × Bytes) := [
  (cstr "aac", cstr "audio/aac"),
  (cstr "abw", cstr "application/x-abiword"),
  (cstr "arc", cstr "application/x-freearc"),
  (cstr "avif", cstr "image/avif"),
  (cstr "avi", cstr "video/x-msvideo"),
  (cstr "azw", cstr "application/vnd.amazon.ebook"),
  (cstr "bin", cstr "application/octet-stream"),
  (cstr "bmp", cstr "image/bmp"),
  (cstr "bz", cstr "application/x-bzip"),
  (cstr "bz2", cstr "application/x-bzip2"),
  (cstr "cda", cstr "application/x-cdf"),
  (cstr "csh", cstr "application/x-csh"),
  (cstr "css", cstr "text/css"),
  (cstr "csv", cstr "text/csv"),
  (cstr "doc", cstr "application/msword"),
  (cstr "docx", cstr "application/vnd.openxmlformats-officedocument.wordprocessingml.document"),
  (cstr "eot", cstr "application/vnd.ms-fontobject"),
  (cstr "epub", cstr "application/epub+zip"),
  (cstr "gz", cstr "application/gzip"),
  (cstr "gif", cstr "image/gif"),
  (cstr "htm", cstr "text/html"),
  (cstr "html", cstr "text/html"),
  (cstr "ico", cstr "image/vnd.microsoft.icon"),
  (cstr "ics", cstr "text/calendar"),
  (cstr "jar", cstr "application/java-archive"),
  (cstr "jpeg", cstr "image/jpeg"),
  (cstr "jpg", cstr "image/jpeg"),
  (cstr "js", cstr "text/javascript"),
  (cstr "json", cstr "application/json"),
  (cstr "jsonld", cstr "application/ld+json"),
  (cstr "mid", cstr "audio/midi"),
  (cstr "midi", cstr "audio/midi"),
  (cstr "mjs", cstr "text/javascript"),
  (cstr "mp3", cstr "audio/mpeg"),
  (cstr "mp4", cstr "video/mp4"),
  (cstr "mpeg", cstr "video/mpeg"),
  (cstr "mpkg", cstr "application/vnd.apple.installer+xml"),
  (cstr "odp", cstr "application/vnd.oasis.opendocument.presentation"),
  (cstr "ods", cstr "application/vnd.oasis.opendocument.spreadsheet"),
  (cstr "odt", cstr "application/vnd.oasis.opendocument.text"),
  (cstr "oga", cstr "audio/ogg"),
  (cstr "ogv", cstr "video/ogg"),
  (cstr "ogx", cstr "application/ogg"),
  (cstr "opus", cstr "audio/opus"),
  (cstr "otf", cstr "font/otf"),
  (cstr "png", cstr "image/png"),
  (cstr "pdf", cstr "application/pdf"),
  (cstr "php", cstr "application/x-httpd-php"),
  (cstr "ppt", cstr "application.vnd.openxmlformats-officedocument.presentationml.presentation"),
  (cstr "rar", cstr "application/vnd.rar"),
  (cstr "rtf", cstr "application/rtf"),
  (cstr "svg", cstr "image/svg+xml"),
  (cstr "tar", cstr "application/x-tar"),
  (cstr "tif", cstr "image/tiff"),
  (cstr "tiff", cstr "image/tiff"),
  (cstr "ts", cstr "video/mp2t"),
  (cstr "ttf", cstr "font/ttf"),
  (cstr "txt", cstr "text/plain"),
  (cstr "vsd", cstr "application/vnd.visio"),
  (cstr "wav", cstr "audio/wav"),
  (cstr "weba", cstr "audio/webm"),
  (cstr "webm", cstr "audio/webm"),
  (cstr "webp", cstr "audio/webp"),
  (cstr "woff2", cstr "font/woff2"),
  (cstr "xhtml", cstr "application/xhtml+xml"),
  (cstr "xls", cstr "application/vnd.ms-excel"),
  (cstr "xlsx", cstr "application/vnd.openxmlformats-officedocument.spreadsheetml.sheet"),
  (cstr "xml", cstr "application/xml"),
  (cstr "xul", cstr "application/vnd.mozilla.xul+xml"),
  (cstr "zip", cstr "application/zip"),
  (cstr "3gp", cstr "video/3gpp"),
  (cstr "3g2", cstr "video/3gpp"),
  (cstr "7z", cstr "application/x-7z-compressed")]

/-- The loop of `lookup`, lib/mime.c:87-92, from a row. -/
def lookupFrom : List (Bytes × Bytes) → Bytes → Option Bytes
  | [], _ => none
  | (k, v) :: rows, ext => if k = ext then some v else lookupFrom rows ext

/-- `lookup`, lib/mime.c:85-94. -/
def lookup (ext : Bytes) : Option Bytes := lookupFrom table ext

end Che.Lib.Mime
