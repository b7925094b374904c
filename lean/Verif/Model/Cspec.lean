import Verif.Model.Types
/-!
# `src/cspec.rs`: the C standard library symbols known to the translator
-/
namespace Che

/-- `src/cspec.rs:9-20` `Kind` and `CSymbol` (the name is the map key). -/
structure CSymbol where
  isType : Bool
  t : Ty
deriving Inhabited

namespace Cspec

/-- `src/cspec.rs:37-51` `t`. -/
def t (name : String) : String × CSymbol := (name, { isType := true, t := tJust name })

/-- `src/cspec.rs:53-60` `c`. -/
def c (name : String) (ty : Ty) : String × CSymbol := (name, { isType := false, t := ty })

/-- `src/cspec.rs:62-75` `f`. -/
def f (name : String) (args : List Ty) (ret : Ty) : String × CSymbol :=
  (name, { isType := false, t := .mk ret.base (.call args :: ret.ops) })

/-- `src/cspec.rs:78-88` the abbreviations. -/
abbrev bool := tJust "bool"
@[inherit_doc bool] abbrev charp := tJustp "char"
@[inherit_doc bool] abbrev chr := tJust "char"
@[inherit_doc bool] abbrev filep := tJustp "FILE"
@[inherit_doc bool] abbrev int := tJust "int"
@[inherit_doc bool] abbrev size := tJust "size_t"
@[inherit_doc bool] abbrev todo := tTodo
@[inherit_doc bool] abbrev void := tJust "void"
@[inherit_doc bool] abbrev voidp := tJustp "void"
@[inherit_doc bool] abbrev dbl := tJust "double"
@[inherit_doc bool] abbrev flt := tJust "float"

/-- `src/cspec.rs:90-259` the table.  No name occurs twice, so the order is
irrelevant. -/
def table : List (String × CSymbol) := [
  t "char",
  t "double",
  t "float",
  t "int",
  t "void",
  c "NULL" voidp,
  t "ptrdiff_t",
  t "size_t",
  t "int16_t",
  t "int32_t",
  t "int64_t",
  t "int8_t",
  t "uint16_t",
  t "uint32_t",
  t "uint64_t",
  t "uint8_t",
  t "bool",
  c "false" bool,
  c "true" bool,
  c "INT_MAX" int,
  c "SIZE_MAX" size,
  c "BUFSIZ" size,
  c "SEEK_END" int,
  c "SEEK_SET" int,
  c "SEEK_CUR" int,
  c "EOF" int,
  c "stderr" filep,
  c "stdin" filep,
  c "stdout" filep,
  f "fclose" [filep] int,
  f "feof" [filep] bool,
  f "ferror" [filep] bool,
  f "fflush" [filep] int,
  f "fgetc" [filep] int,
  f "fgets" [voidp, size, filep] charp,
  f "fopen" [charp, charp] filep,
  f "fprintf" [filep, charp, tEllipsis] void,
  f "fputc" [int, filep] int,
  f "fputs" [charp, filep] int,
  f "fread" [voidp, size, size, filep] size,
  f "fseek" [filep, (tJust "int32_t"), int] int,
  f "ftell" [filep] (tJust "int32_t"),
  f "fwrite" [voidp, size, size, filep] size,
  f "getc" [filep] int,
  f "getchar" [] int,
  f "printf" [charp, tEllipsis] int,
  f "putc" [int, filep] int,
  f "putchar" [int] int,
  f "puts" [charp] int,
  f "remove" [charp] int,
  f "rename" [charp, charp] int,
  f "rewind" [filep] void,
  f "scanf" [charp, tEllipsis] int,
  f "setvbuf" [todo] todo,
  f "snprintf" [voidp, size, charp, tEllipsis] todo,
  f "sprintf" [charp, charp, tEllipsis] todo,
  f "sscanf" [voidp, charp, tEllipsis] int,
  f "tmpfile" [] filep,
  f "ungetc" [int, filep] int,
  f "vfprintf" [filep, charp, todo] int,
  f "vprintf" [charp, todo] int,
  f "vsnprintf" [voidp, size, charp, todo] int,
  f "vsprintf" [voidp, charp, todo] int,
  t "FILE",
  f "isalpha" [int] bool,
  f "isdigit" [int] bool,
  f "isgraph" [int] bool,
  f "islower" [int] bool,
  f "isprint" [int] bool,
  f "isspace" [int] bool,
  f "tolower" [int] int,
  f "toupper" [int] int,
  f "abort" [todo] void,
  f "atof" [todo] todo,
  f "atoi" [todo] todo,
  f "atol_l" [todo] todo,
  f "atol" [todo] todo,
  f "atoll_l" [todo] todo,
  f "atoll" [todo] todo,
  f "calloc" [size, size] voidp,
  f "exit" [int] void,
  f "free" [voidp] void,
  f "qsort" [voidp, size, size, todo] void,
  f "realloc" [voidp, size] voidp,
  f "strtod" [todo, todo] todo,
  f "strtof" [todo] todo,
  f "strtold" [todo] todo,
  f "strtoull" [todo, todo, todo] todo,
  c "M_PI" dbl,
  f "acos" [dbl] dbl,
  f "ceil" [dbl] dbl,
  f "ceilf" [flt] flt,
  f "cos" [dbl] dbl,
  f "cosf" [flt] flt,
  f "exp" [dbl] dbl,
  f "expm1" [dbl] dbl,
  f "fabs" [dbl] dbl,
  f "floor" [dbl] dbl,
  f "floorf" [flt] flt,
  f "fmod" [dbl, dbl] dbl,
  f "lgamma" [dbl] dbl,
  f "log" [dbl] dbl,
  f "log10" [dbl] dbl,
  f "log1p" [dbl] dbl,
  f "pow" [dbl, dbl] dbl,
  f "round" [dbl] dbl,
  f "roundf" [flt] flt,
  f "sin" [dbl] dbl,
  f "sinf" [flt] flt,
  f "sqrt" [dbl] dbl,
  f "sqrtf" [flt] flt,
  f "memcmp" [voidp, voidp, size] int,
  f "memcpy" [voidp, voidp, size] void,
  f "memmove" [voidp, voidp, size] void,
  f "memset" [voidp, int, size] void,
  f "strcat" [charp, charp] charp,
  f "strchr" [charp, int] charp,
  f "strcmp" [charp, charp] int,
  f "strcpy" [charp, charp] charp,
  f "strerror" [int] charp,
  f "strlen" [charp] size,
  f "strncat" [charp, charp, size] chr,
  f "strncmp" [charp, charp, size] int,
  f "strrchr" [charp, int] charp,
  f "strstr" [charp, charp] charp,
  t "time_t",
  f "strftime" [todo, todo, todo, todo] todo,
  f "localtime" [todo] todo,
  f "time" [todo] (tJust "time_t"),
  t "jmp_buf",
  f "longjmp" [todo, todo] todo,
  f "setjmp" [todo] todo,
  t "va_list",
  f "va_end" [todo] void,
  f "va_start" [todo, todo] void,
  c "SIGABRT" int,
  c "SIGFPE" int,
  c "SIGILL" int,
  c "SIGINT" int,
  c "SIGSEGV" int,
  c "SIGTERM" int,
  c "SIG_DFL" int,
  c "SIG_IGN" int,
  f "signal" [todo, todo] int,
  f "assert" [todo] void,
  c "errno" int,
  f "nelem" [todo] size,
  f "calloc_or_panic" [size, size] voidp]

/-- `src/cspec.rs:29-31` `find_sym`. -/
def findSym (s : String) : Option CSymbol := mapGet table s

/-- `src/cspec.rs:25-27` `has_type`. -/
def hasType (name : String) : Bool :=
  match findSym name with
  | some x => x.isType
  | none => false

end Cspec
end Che
