import Verif.Model.Cli
import Verif.Props.Loading
import Verif.Props.Naming
import Verif.Props.Linking
import Verif.Props.Cli
import Verif.Props.Resolving
import Verif.Props.Exports
import Verif.Props.Modules
import Verif.Props.Typing
import Verif.Props.Lexing
import Verif.Props.Lookahead
import Verif.Props.Layout
import Verif.Props.Literals
import Verif.Props.Preparsing
import Verif.Props.Unrelated
import Verif.Props.Parsing
import Verif.Props.Running
import Verif.Props.Printing
import Verif.Props.Pairing
import Verif.Props.CFiles
import Verif.Props.Whole
import Verif.Props.Crashing
import Verif.Props.DepTree
import Verif.Props.Listing
import Verif.Props.Commands
import Verif.Props.Lib.Enc
import Verif.Props.Lib.Bits
import Verif.Props.Lib.Lzw
import Verif.Props.Lib.Coll
import Verif.Props.Lib.Map2
import Verif.Props.Lib.Strings
import Verif.Props.Lib.Sha1
import Verif.Props.Lib.Md5
import Verif.Props.Lib.Mem
import Verif.Props.TestCmd
import Verif.Props.Lib.Tok
import Verif.Props.Lib.Json
import Verif.Props.Lib.Csv
import Verif.Props.Lib.Bencode
import Verif.Props.Lib.Huffman
import Verif.Props.Lib.Utf
import Verif.Props.Prog.Logic
import Verif.Props.Prog.Regexp9
import Verif.Props.Lib.Opt
import Verif.Props.Lib.Text
import Verif.Props.Lib.Time
import Verif.Props.Lib.Image
import Verif.Props.Lib.Png
import Verif.Props.Lib.Bmp
import Verif.Props.Lib.Http
import Verif.Props.Lib.HttpResponse
import Verif.Props.Lib.Cgi
import Verif.Props.Prog.Webserver
import Verif.Props.Prog.Lc3
import Verif.Props.Prog.Chip8
import Verif.Props.Lib.Xml
import Verif.Props.Lib.Conf
import Verif.Props.Lib.Vtt
import Verif.Props.Lib.Wav
import Verif.Props.Lib.Rnd
import Verif.Props.Prog.SortCircle
import Verif.Props.Prog.Trim
import Verif.Props.Prog.Zipranges
import Verif.Props.Lib.Stats
import Verif.Props.Lib.Threads
import Verif.Props.Prog.Exab
import Verif.Props.Prog.Torrent
import Verif.Props.Prog.Peer
import Verif.Props.Prog.Battleship
import Verif.Props.Lib.TorrentFile
import Verif.Props.Prog.Wisp
import Verif.Props.Lib.Srt
import Verif.Props.Lib.Mp3
import Verif.Props.Lib.Cue
import Verif.Props.Prog.Tracklist
import Verif.Props.Prog.Vtt2jsonl
import Verif.Props.Prog.Decompose
import Verif.Props.Lib.Tiff
import Verif.Props.Prog.Chargen
import Verif.Props.Prog.Rtf2html
import Verif.Props.Prog.Multicut
import Verif.Props.Prog.Tsmeta
import Verif.Props.Prog.Datelog
import Verif.Props.Prog.Jsonl2csv
import Verif.Props.Prog.Rand
import Verif.Props.Prog.Avg
import Verif.Props.Prog.Echo7
import Verif.Props.Prog.Floatbits
import Verif.Props.Prog.Stats
import Verif.Props.Lib.Mime
