import Verif.Model.Lib.IO

/-!
Comma-separated values after RFC 4180, independently of `lib/formats/csv.c`.
-/
namespace Che.Spec.Lib
open Che.Lib

/-- The text between quotes: a quote is doubled. -/
inductive QuotedText : Bytes → Bytes → Prop
  | nil : QuotedText [] []
  | plain {c : UInt8} {v t : Bytes} : c ≠ 34 → QuotedText v t → QuotedText (c :: v) (c :: t)
  | quote {v t : Bytes} : QuotedText v t → QuotedText (34 :: v) (34 :: 34 :: t)

/-- A field: quoted, or bare without quotes, commas and line ends. -/
inductive CsvField : Bytes → Bytes → Prop
  | bare {v : Bytes} : (∀ c ∈ v, c ≠ 34 ∧ c ≠ 44 ∧ c ≠ 10 ∧ c ≠ 13) → CsvField v v
  | quoted {v t : Bytes} : QuotedText v t → CsvField v ([34] ++ t ++ [34])

/-- A record: fields between commas.  `last` is a condition on the text of the last. -/
inductive CsvRecord (last : Bytes → Prop) : List Bytes → Bytes → Prop
  | one {v t : Bytes} : CsvField v t → last t → CsvRecord last [v] t
  | more {v t : Bytes} {vs : List Bytes} {r : Bytes} : CsvField v t → CsvRecord last vs r → CsvRecord last (v :: vs) (t ++ [44] ++ r)

/-- Records with a line end after each; after the last it may be missing. -/
inductive CsvFile (last : Bytes → Prop) : List (List Bytes) → Bytes → Prop
  | nil : CsvFile last [] []
  | one {r : List Bytes} {t : Bytes} : CsvRecord last r t → CsvFile last [r] t
  | more {r : List Bytes} {t e : Bytes} {rs : List (List Bytes)} {u : Bytes} : CsvRecord last r t → e = [10] ∨ e = [13, 10] →
      CsvFile last rs u → CsvFile last (r :: rs) (t ++ e ++ u)

end Che.Spec.Lib
