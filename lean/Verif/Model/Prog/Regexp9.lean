import Verif.Model.Lib.Utf

/-!
Model of `prog/libregexp9/regexp9.c`: regular expressions compiled to a program for a machine
that follows all ways to match at once.

A `Reinst *` is the number of the instruction in `firstinst`; `NULL` is `none`.  A `char *`
into the text is an offset, `NULL` again `none`.  The unions are constructors: `u1` is the
argument of the instruction and `u2` is `next` (which is `left` for `OR`).  The classes of
characters are kept in their instructions; their number is kept.  `rcerror` prints its message
and ends the process: `Res.err`.  The copying of the program to its final place in `optimize`
(lines 565-594) and the debugging output are left out.  Writing past the end of a list of
threads, following `NULL`, and reading past the end of a string are panics whose text begins
with "undefined".

All subexpressions are copied with a thread even if `ms` is 1; the code copies only the first
one then, and reports only that one.
-/
namespace Che.Prog.Regexp9
open Che.Lib

/-! ## Instructions -/

/-- The type of an instruction and its `u1`, prog/libregexp9/regexp9.c:174-187, 205-224. -/
inductive Op
  | rune (r : Nat)
  | any
  | anynl
  | nop
  | bol
  | eol
  | cclass (spans : List (Nat × Nat))
  | ncclass (spans : List (Nat × Nat))
  | lbra (id : Nat)
  | rbra (id : Nat)
  | or (right : Nat)
  | fin
deriving Repr, DecidableEq

/-- `Reinst`, prog/libregexp9/regexp9.c:174-187. -/
structure Inst where
  op : Op
  next : Option Nat
deriving Repr, DecidableEq

/-- `Reprog`, prog/libregexp9/regexp9.c:193-197. -/
structure Prog where
  start : Nat
  insts : List Inst
deriving Repr, DecidableEq

/-- The codes of the operators, prog/libregexp9/regexp9.c:208-215. -/
def START := 128
def RBRA := 129
def LBRA := 130
def OR := 131
def CAT := 132
def STAR := 133
def PLUS := 134
def QUEST := 135

/-! ## Reading the expression -/

/-- The place in the expression: `exprp` and `lexdone`. -/
structure Lex where
  pos : Nat
  done : Bool
deriving Repr, DecidableEq

/-- The result of a function of `utf` as one of the compiler. -/
def lift {α : Type} : Res Empty α → Res String α
  | .ok x => .ok x
  | .err e => nomatch e
  | .panic m => .panic m
  | .diverge => .diverge

/-- `nextc`, prog/libregexp9/regexp9.c:636-649: whether the rune was quoted, and the rune. -/
def nextc (e : Bytes) (l : Lex) : Res String (Lex × Bool × Nat) :=
  if l.done then .ok (l, true, 0) else
  (lift (Utf.get_rune e l.pos)).bind fun (r, n) =>
  if r = 92 then
    (lift (Utf.get_rune e (l.pos + n))).bind fun (r, m) => .ok ({ l with pos := l.pos + n + m }, true, r)
  else .ok ({ pos := l.pos + n, done := decide (r = 0) }, false, r)

/-- The loop that reads spans, prog/libregexp9/regexp9.c:701-723; `spans` is `r` up to `ep`,
in reverse order. -/
def spansLoop (e : Bytes) : Nat → Lex → Bool → Nat → List (Nat × Nat) → Res String (Lex × List (Nat × Nat))
  | 0, _, _, _, _ => .diverge
  | n + 1, l, quoted, rune, spans =>
    if ¬ 2 * spans.length < 63 then .err "char class too large; increase Reclass.spans size"
    else if rune = 0 then .err "malformed '[]'"
    else if ¬ quoted ∧ rune = 93 then .ok (l, spans)
    else if ¬ quoted ∧ rune = 45 then
      match spans with
      | [] => .err "malformed '[]'"
      | (lo, _) :: rest =>
        (nextc e l).bind fun (l, quoted, rune) =>
        if (¬ quoted ∧ rune = 93) ∨ rune = 0 then .err "malformed '[]'"
        else
          (nextc e l).bind fun (l, quoted, rune') =>
          spansLoop e n l quoted rune' ((lo, rune) :: rest)
    else
      (nextc e l).bind fun (l, quoted, rune') =>
      spansLoop e n l quoted rune' ((rune, rune) :: spans)

/-- The inner loop of the sorting, prog/libregexp9/regexp9.c:731-739: the first span and the
others. -/
def sortPass (p : Nat × Nat) : List (Nat × Nat) → (Nat × Nat) × List (Nat × Nat)
  | [] => (p, [])
  | q :: rest =>
    if q.1 < p.1 then
      let (p', rest') := sortPass q rest
      (p', p :: rest')
    else
      let (p', rest') := sortPass p rest
      (p', q :: rest')

/-- The sorting of spans, prog/libregexp9/regexp9.c:730-740. -/
def sortSpans : Nat → List (Nat × Nat) → List (Nat × Nat)
  | n + 1, p :: rest =>
    let (p', rest') := sortPass p rest
    p' :: sortSpans n rest'
  | _, _ => []

/-- The merging of spans, prog/libregexp9/regexp9.c:748-762. -/
def mergeLoop (np : Nat × Nat) : List (Nat × Nat) → List (Nat × Nat)
  | [] => [np]
  | p :: rest =>
    if p.1 ≤ np.2 + 1 then
      if p.2 ≥ np.2 then mergeLoop (np.1, p.2) rest else mergeLoop np rest
    else np :: mergeLoop p rest

/-- The end of `bldcclass`, prog/libregexp9/regexp9.c:729-763. -/
def mergeSpans (spans : List (Nat × Nat)) : List (Nat × Nat) :=
  match sortSpans spans.length spans with
  | [] => []
  | p :: rest => mergeLoop p rest

/-- Tokens, prog/libregexp9/regexp9.c:205-224. -/
inductive Token
  | end_
  | op (code : Nat)
  | operand (o : Op)
deriving Repr, DecidableEq

/-- `bldcclass`, prog/libregexp9/regexp9.c:680-766, with `newclass`, 629-634. -/
def bldcclass (e : Bytes) (l : Lex) (nclass : Nat) : Res String (Lex × Token) :=
  if nclass ≥ 16 then .err "too many character classes; increase Reprog.class size" else
  (nextc e l).bind fun (l, quoted, rune) =>
  if ¬ quoted ∧ rune = 94 then
    (nextc e l).bind fun (l, quoted, rune) =>
    (spansLoop e (e.length + 2) l quoted rune [(10, 10)]).bind fun (l, spans) =>
    .ok (l, .operand (.ncclass (mergeSpans spans.reverse)))
  else
    (spansLoop e (e.length + 2) l quoted rune []).bind fun (l, spans) =>
    .ok (l, .operand (.cclass (mergeSpans spans.reverse)))

/-- `lex`, prog/libregexp9/regexp9.c:651-678. -/
def lex (literal : Bool) (dot : Op) (e : Bytes) (l : Lex) (nclass : Nat) : Res String (Lex × Token) :=
  (nextc e l).bind fun (l, quoted, r) =>
  if literal ∨ quoted then
    if r = 0 then .ok (l, .end_) else .ok (l, .operand (.rune r))
  else if r = 0 then .ok (l, .end_)
  else if r = 42 then .ok (l, .op STAR)
  else if r = 63 then .ok (l, .op QUEST)
  else if r = 43 then .ok (l, .op PLUS)
  else if r = 124 then .ok (l, .op OR)
  else if r = 46 then .ok (l, .operand dot)
  else if r = 40 then .ok (l, .op LBRA)
  else if r = 41 then .ok (l, .op RBRA)
  else if r = 94 then .ok (l, .operand .bol)
  else if r = 36 then .ok (l, .operand .eol)
  else if r = 91 then bldcclass e l nclass
  else .ok (l, .operand (.rune r))

/-! ## Making the program -/

/-- The variables of the compiler, prog/libregexp9/regexp9.c:251-274.  The stacks have their
top first; an operator has its `subid` with it. -/
structure Comp where
  insts : List Inst
  ands : List (Nat × Nat)
  ators : List (Nat × Nat)
  cursubid : Nat
  lastwasand : Bool
  nbra : Nat
deriving Repr, DecidableEq

/-- `newinst`, prog/libregexp9/regexp9.c:352-359. -/
def newinst (c : Comp) (o : Op) : Comp × Nat :=
  ({ c with insts := c.insts ++ [{ op := o, next := none }] }, c.insts.length)

/-- `pushand`, prog/libregexp9/regexp9.c:418-426. -/
def pushand (c : Comp) (f l : Nat) : Res String Comp :=
  if c.ands.length ≥ 20 then .err "can't happen: operand stack overflow"
  else .ok { c with ands := (f, l) :: c.ands }

/-- `pushator`, prog/libregexp9/regexp9.c:428-435. -/
def pushator (c : Comp) (t : Nat) : Res String Comp :=
  if c.ators.length ≥ 20 then .err "can't happen: operator stack overflow"
  else .ok { c with ators := (t, c.cursubid) :: c.ators }

/-- `popand`, prog/libregexp9/regexp9.c:437-448. -/
def popand (c : Comp) (op : String) : Res String (Comp × Nat × Nat) :=
  match c.ands with
  | [] => .err ("missing operand for " ++ op)
  | (f, l) :: rest => .ok ({ c with ands := rest }, f, l)

/-- `i->u2.next = n`. -/
def setNext (c : Comp) (i n : Nat) : Comp :=
  { c with insts := c.insts.modify i fun x => { x with next := some n } }

/-- `inst1 = newinst(OR)` with its two children set. -/
def newor (c : Comp) (right : Nat) (left : Option Nat) : Comp × Nat :=
  ({ c with insts := c.insts ++ [{ op := .or right, next := left }] }, c.insts.length)

/-- `case LBRA`, prog/libregexp9/regexp9.c:468-479. -/
def evalBra (c : Comp) (id : Nat) : Res String Comp :=
  (popand c "(").bind fun (c, f1, l1) =>
  let (c, inst2) := newinst c (.rbra id)
  let c := setNext c l1 inst2
  let (c, inst1) := newinst c (.lbra id)
  let c := setNext c inst1 f1
  pushand c inst1 inst2

/-- The other cases of `evaluntil`, prog/libregexp9/regexp9.c:480-537. -/
def evalOp (c : Comp) (op : Nat) : Res String Comp :=
  if op = OR then
    (popand c "|").bind fun (c, f2, l2) =>
    (popand c "|").bind fun (c, f1, l1) =>
    let (c, inst2) := newinst c .nop
    let c := setNext c l2 inst2
    let c := setNext c l1 inst2
    let (c, inst1) := newor c f1 (some f2)
    pushand c inst1 inst2
  else if op = CAT then
    (popand c "").bind fun (c, f2, l2) =>
    (popand c "").bind fun (c, f1, l1) =>
    pushand (setNext c l1 f2) f1 l2
  else if op = STAR then
    (popand c "*").bind fun (c, f2, l2) =>
    let (c, inst1) := newor c f2 none
    pushand (setNext c l2 inst1) inst1 inst1
  else if op = PLUS then
    (popand c "+").bind fun (c, f2, l2) =>
    let (c, inst1) := newor c f2 none
    pushand (setNext c l2 inst1) f2 inst1
  else if op = QUEST then
    (popand c "?").bind fun (c, f2, l2) =>
    let (c, inst1) := newor c f2 none
    let (c, inst2) := newinst c .nop
    let c := setNext c inst1 inst2
    pushand (setNext c l2 inst2) inst1 inst2
  else .err "unknown operator in evaluntil"

/-- The loop of `evaluntil`, prog/libregexp9/regexp9.c:466-540; the first argument is the stack
of operators. -/
def evalLoop (pri : Nat) : List (Nat × Nat) → Comp → Res String Comp
  | [], _ => .panic "undefined: read below the stack of operators"
  | (op, id) :: rest, c =>
    if pri = RBRA ∨ op ≥ pri then
      if op = LBRA then evalBra { c with ators := rest } id
      else (evalOp { c with ators := rest } op).bind (evalLoop pri rest)
    else .ok c

/-- `evaluntil`, prog/libregexp9/regexp9.c:461-541. -/
def evaluntil (c : Comp) (pri : Nat) : Res String Comp := evalLoop pri c.ators c

/-- `operator` for all but brackets, prog/libregexp9/regexp9.c:391-396. -/
def operator1 (c : Comp) (t : Nat) : Res String Comp :=
  (evaluntil c t).bind fun c =>
  (pushator c t).bind fun c =>
  .ok { c with lastwasand := decide (t = STAR ∨ t = QUEST ∨ t = PLUS) }

/-- `operator`, prog/libregexp9/regexp9.c:379-397. -/
def operator (c : Comp) (t : Nat) : Res String Comp :=
  if t = RBRA then
    if c.nbra = 0 then .err "unmatched right paren" else
    (evaluntil { c with nbra := c.nbra - 1 } RBRA).bind fun c => .ok { c with lastwasand := true }
  else if t = LBRA then
    if c.cursubid + 1 ≥ 32 then .err "too many subexpressions" else
    let c := { c with cursubid := c.cursubid + 1, nbra := c.nbra + 1 }
    (if c.lastwasand then operator1 c CAT else .ok c).bind fun c =>
    (pushator c LBRA).bind fun c => .ok { c with lastwasand := false }
  else operator1 c t

/-- `operand`, prog/libregexp9/regexp9.c:361-377. -/
def operand (c : Comp) (o : Op) : Res String Comp :=
  (if c.lastwasand then operator1 c CAT else .ok c).bind fun c =>
  let (c, i) := newinst c o
  (pushand c i i).bind fun c => .ok { c with lastwasand := true }

/-- The loop of `regcomp1`, prog/libregexp9/regexp9.c:308-318. -/
def compLoop (literal : Bool) (dot : Op) (e : Bytes) : Nat → Lex → Nat → Comp → Res String Comp
  | 0, _, _, _ => .diverge
  | n + 1, l, nclass, c =>
    (lex literal dot e l nclass).bind fun (l, t) =>
    match t with
    | .end_ => .ok c
    | .op code => (operator c code).bind fun c => compLoop literal dot e n l nclass c
    | .operand o =>
      (operand c o).bind fun c =>
      compLoop literal dot e n l (match o with | .cclass _ => nclass + 1 | .ncclass _ => nclass + 1 | _ => nclass) c

/-- The inner loop of `optimize`, prog/libregexp9/regexp9.c:554-557: where a chain of `NOP` leads. -/
def skipNops (insts : List Inst) : Nat → Nat → Res String Nat
  | 0, _ => .diverge
  | n + 1, i =>
    match insts[i]? with
    | none => .panic "undefined: no instruction"
    | some x => match x.op with
      | .nop => match x.next with
        | some j => skipNops insts n j
        | none => .panic "undefined: NULL is used as an instruction"
      | _ => .ok i

/-- The loop of `optimize`, prog/libregexp9/regexp9.c:553-559; `k` is the place. -/
def optLoop : Nat → Nat → List Inst → Res String (List Inst)
  | 0, _, _ => .diverge
  | n + 1, k, insts =>
    match insts[k]? with
    | none => .panic "undefined: no instruction"
    | some x => match x.op with
      | .fin => .ok insts
      | _ => match x.next with
        | none => .panic "undefined: NULL is used as an instruction"
        | some j => (skipNops insts (insts.length + 1) j).bind fun t =>
          optLoop n (k + 1) (insts.set k { x with next := some t })

/-- `regcomp1`, prog/libregexp9/regexp9.c:276-346. -/
def regcomp1 (literal : Bool) (dot : Op) (e : Bytes) : Res String Prog :=
  (pushator { insts := [], ands := [], ators := [], cursubid := 0, lastwasand := false, nbra := 0 } (START - 1)).bind fun c =>
  (compLoop literal dot e (e.length + 2) { pos := 0, done := false } 0 c).bind fun c =>
  (evaluntil c START).bind fun c =>
  (operand c .fin).bind fun c =>
  (evaluntil c START).bind fun c =>
  if c.nbra ≠ 0 then .err "unmatched left paren" else
  match c.ands with
  | [] => .panic "undefined: read below the stack of operands"
  | (f, _) :: _ =>
    (optLoop (c.insts.length + 1) 0 c.insts).bind fun insts => .ok { start := f, insts := insts }

/-- `regcomp`, prog/libregexp9/regexp9.c:773-775. -/
def regcomp (e : Bytes) : Res String Prog := regcomp1 false .any e

/-- `regcomplit`, prog/libregexp9/regexp9.c:777-779. -/
def regcomplit (e : Bytes) : Res String Prog := regcomp1 true .any e

/-- `regcompnl`, prog/libregexp9/regexp9.c:781-783. -/
def regcompnl (e : Bytes) : Res String Prog := regcomp1 false .anynl e

/-! ## Running the program -/

/-- `Resub`, prog/libregexp9/regexp9.c:123-133. -/
structure Resub where
  sp : Option Nat
  ep : Option Nat
deriving Repr, DecidableEq

/-- `Relist`, prog/libregexp9/regexp9.c:151-154: an instruction and the 32 subexpressions. -/
structure Thread where
  inst : Nat
  se : List Resub
deriving Repr, DecidableEq

/-- `p < q` for pointers into the text. -/
def before : Option Nat → Option Nat → Bool
  | none, some _ => true
  | some a, some b => decide (a < b)
  | _, none => false

/-- `m[0]`. -/
def first (se : List Resub) : Resub := se.getD 0 ⟨none, none⟩

/-- `_renewmatch`, prog/libregexp9/regexp9.c:790-808. -/
def renewmatch (mp : List Resub) (se : List Resub) : List Resub :=
  if mp.length = 0 then mp
  else if (first mp).sp = none ∨ before (first se).sp (first mp).sp ∨
      ((first se).sp = (first mp).sp ∧ before (first mp).ep (first se).ep) then
    (se.take mp.length) ++ List.replicate (mp.length - 32) ⟨none, none⟩
  else mp

/-- The loop of `_renewthread`, prog/libregexp9/regexp9.c:818-846: the list, and whether the
thread was added at its end. -/
def renewthread (ip : Nat) (se : List Resub) : List Thread → List Thread × Bool
  | [] => ([⟨ip, se⟩], true)
  | t :: ts =>
    if t.inst = ip then
      (if before (first se).sp (first t.se).sp then ⟨ip, se⟩ :: ts else t :: ts, false)
    else
      let (ts', added) := renewthread ip se ts
      (t :: ts', added)

/-- A call of `_renewthread` for a list of `cap` places of which `used` are used; `-1` if the
list is then full. -/
def addthread (cap used : Nat) (ip : Nat) (se : List Resub) (l : List Thread) : Res Unit (List Thread) :=
  let (l', added) := renewthread ip se l
  if added then
    if used + 1 ≥ cap then .panic "undefined: write past the end of the list"
    else if used + 1 = cap - 2 then .err ()
    else .ok l'
  else .ok l'

/-- What changes while the threads of one place in the text are run. -/
structure Run where
  /-- The threads that were taken, with the one that is run. -/
  used : Nat
  pend : List Thread
  nl : List Thread
  mp : List Resub
  matched : Bool
deriving Repr, DecidableEq

/-- Whether the rune is in one of the spans, prog/libregexp9/regexp9.c:1030-1036. -/
def inSpans (spans : List (Nat × Nat)) (r : Nat) : Bool := spans.any fun p => decide (r ≥ p.1 ∧ r ≤ p.2)

/-- `tlp->se.m[i].s.sp = s`. -/
def setSp (se : List Resub) (i s : Nat) : List Resub := se.modify i fun m => { m with sp := some s }

/-- `tlp->se.m[i].e.ep = s`. -/
def setEp (se : List Resub) (i s : Nat) : List Resub := se.modify i fun m => { m with ep := some s }

/-- Where the machine is: the text, the capacity of the lists, `j->eol`, `s` and `r`. -/
structure Place where
  text : Bytes
  cap : Nat
  eol : Option Nat
  s : Nat
  r : Nat

/-- `if (cond) if (_renewthread(nl, inst->u2.next, ms, &tlp->se) == nle) return -1;`, and then `break`. -/
def accept (p : Place) (next : Option Nat) (se : List Resub) (st : Run) (cond : Bool) : Res Unit Run :=
  if cond then
    match next with
    | none => .panic "undefined: NULL is used as an instruction"
    | some k => (addthread p.cap st.nl.length k se st.nl).bind fun nl => .ok { st with nl := nl }
  else .ok st

/-- `s == bol || *(s-1) == '\n'`, prog/libregexp9/regexp9.c:1021. -/
def atBol (p : Place) : Bool := p.s = 0 || p.text.getD (p.s - 1) 0 = 10

/-- `s == j->eol || r == 0 || r == '\n'`, prog/libregexp9/regexp9.c:1025. -/
def atEol (p : Place) : Bool := p.eol = some p.s || p.r = 0 || p.r = 10

/-- The run of one thread, prog/libregexp9/regexp9.c:995-1071; `ent` is the instruction in the
list, `pc` the one that is run. -/
def walk (insts : List Inst) (p : Place) (ent : Nat) : Nat → Option Nat → List Resub → Run → Res Unit Run
  | 0, _, _, _ => .diverge
  | _ + 1, none, _, _ => .panic "undefined: NULL is used as an instruction"
  | n + 1, some pc, se, st =>
    match insts[pc]? with
    | none => .panic "undefined: no instruction"
    | some x =>
      match x.op with
      | .rune c => accept p x.next se st (c = p.r)
      | .lbra id => walk insts p ent n x.next (setSp se id p.s) st
      | .rbra id => walk insts p ent n x.next (setEp se id p.s) st
      | .any => accept p x.next se st (p.r ≠ 10)
      | .anynl => accept p x.next se st true
      | .bol => if atBol p then walk insts p ent n x.next se st else .ok st
      | .eol => if atEol p then walk insts p ent n x.next se st else .ok st
      | .cclass spans => accept p x.next se st (inSpans spans p.r)
      | .ncclass spans => accept p x.next se st (¬ inSpans spans p.r)
      | .or right =>
        if ent = right then walk insts p ent n x.next se st
        else
          (addthread p.cap (st.used + st.pend.length) right se st.pend).bind fun pend =>
          walk insts p ent n x.next se { st with pend := pend }
      | .fin =>
        .ok { st with matched := true, mp := renewmatch st.mp (setEp se 0 p.s) }
      | .nop => .ok st

/-- The threads of one place, prog/libregexp9/regexp9.c:994-1072. -/
def runList (insts : List Inst) (p : Place) : Nat → Run → Res Unit Run
  | 0, _ => .diverge
  | n + 1, st =>
    match st.pend with
    | [] => .ok st
    | t :: ts =>
      (walk insts p t.inst (insts.length + 1) (some t.inst) t.se
        { st with used := st.used + 1, pend := ts }).bind fun st => runList insts p n st

/-- `_renewemptythread`, prog/libregexp9/regexp9.c:855-875. -/
def renewempty (cap : Nat) (ip s : Nat) (l : List Thread) : Res Unit (List Thread) :=
  let se := List.replicate 32 ⟨none, none⟩
  let (l', added) := renewthread ip (setSp se 0 s) l
  if added ∧ l.length + 1 ≥ cap then .panic "undefined: write past the end of the list" else .ok l'

/-- The rune at a place and its length, prog/libregexp9/regexp9.c:974-978. -/
def runeAt (text : Bytes) (s : Nat) : Res Empty (Nat × Nat) :=
  (Utf.rd text s).bind fun r => if r < 0x80 then .ok (r, 1) else Utf.get_rune text s

/-- A result of a function of `utf`. -/
def lift' {α : Type} : Res Empty α → Res Unit α
  | .ok x => .ok x
  | .err e => nomatch e
  | .panic m => .panic m
  | .diverge => .diverge

/-- `j->starttype` and `j->startchar`. -/
inductive StartType
  | no
  | rune (c : Nat)
  | bol
deriving Repr, DecidableEq

/-- The check for the first character, prog/libregexp9/regexp9.c:956-973: where to go on, or `none`
to return. -/
def skipTo (ty : StartType) (text : Bytes) (eol : Option Nat) (s : Nat) : Res Unit (Option Nat) :=
  match ty with
  | .no => .ok (some s)
  | .rune c => (lift' (Utf.utfrune text s c)).bind fun q =>
    match q with
    | none => .ok none
    | some p => if eol = some s then .ok none else .ok (some p)
  | .bol =>
    if s = 0 then .ok (some s) else
    (lift' (Utf.utfrune text s 10)).bind fun q =>
    match q with
    | none => .ok none
    | some p => if eol = some s then .ok none else .ok (some (p + 1))

/-- The main loop of `regexec1`, prog/libregexp9/regexp9.c:954-1082. -/
def execLoop (prog : Prog) (ty : StartType) (text : Bytes) (cap : Nat) (eol : Option Nat) :
    Nat → Bool → Nat → List Thread → List Resub → Bool → Res Unit (Bool × List Resub)
  | 0, _, _, _, _, _ => .diverge
  | n + 1, checkstart, s, tl, mp, matched =>
    (if checkstart then skipTo ty text eol s else .ok (some s)).bind fun q =>
    match q with
    | none => .ok (matched, mp)
    | some s =>
      (lift' (runeAt text s)).bind fun (r, k) =>
      (if matched then .ok tl else renewempty cap prog.start s tl).bind fun tl =>
      (runList prog.insts { text := text, cap := cap, eol := eol, s := s, r := r } cap
        { used := 0, pend := tl, nl := [], mp := mp, matched := matched }).bind fun st =>
      if eol = some s then .ok (st.matched, st.mp)
      else if r = 0 then .ok (st.matched, st.mp)
      else execLoop prog ty text cap eol n (decide (ty ≠ .no) && st.nl.isEmpty) (s + k) st.nl st.mp st.matched

/-- The kind of the first instruction, prog/libregexp9/regexp9.c:1126-1133. -/
def startType (prog : Prog) : Res Unit StartType :=
  match prog.insts[prog.start]? with
  | none => .panic "undefined: no instruction"
  | some x => match x.op with
    | .rune r => if r < 0x80 then .ok (.rune r) else .ok .no
    | .bol => .ok .bol
    | _ => .ok .no

/-- `regexec1`, prog/libregexp9/regexp9.c:919-1084. -/
def regexec1 (prog : Prog) (ty : StartType) (text : Bytes) (cap : Nat) (starts : Nat) (eol : Option Nat) (ms : Nat) :
    Res Unit (Bool × List Resub) :=
  execLoop prog ty text cap eol (text.length + 2) (decide (ty ≠ .no)) starts [] (List.replicate ms ⟨none, none⟩) false

/-- The result of `regexec`. -/
inductive Result
  | match (mp : List Resub)
  | no
  | full
deriving Repr, DecidableEq

/-- `regexec`, prog/libregexp9/regexp9.c:1118-1150, with `regexec2`, 1090-1112; `starts` and `eol` are
taken from `mp[0]` on entry. -/
def regexec (prog : Prog) (text : Bytes) (starts : Nat) (eol : Option Nat) (ms : Nat) : Res Empty Result :=
  match startType prog with
  | .ok ty =>
    match regexec1 prog ty text 10 starts eol ms with
    | .ok (true, mp) => .ok (.match mp)
    | .ok (false, _) => .ok .no
    | .panic m => .panic m
    | .diverge => .diverge
    | .err _ =>
      match regexec1 prog ty text 250 starts eol ms with
      | .ok (true, mp) => .ok (.match mp)
      | .ok (false, _) => .ok .no
      | .panic m => .panic m
      | .diverge => .diverge
      | .err _ => .ok .full
  | .err _ => .ok .full
  | .panic m => .panic m
  | .diverge => .diverge

/-! ## Substitution -/

/-- `if (dp < ep) *dp++ = c;` where `out` is what was written so far; `ep` is `dlen - 1` bytes after
the beginning of the destination. -/
def put (dlen : Nat) (out : Bytes) (c : UInt8) : Bytes := if out.length + 1 < dlen then out ++ [c] else out

/-- `for (ssp = sp; ssp < ep; ssp++) if (dp < ep) *dp++ = *ssp;` for `n` bytes from `s` on. -/
def copy (text : Bytes) (dlen : Nat) : Nat → Nat → Bytes → Res Empty Bytes
  | 0, _, out => .ok out
  | n + 1, s, out =>
    if out.length + 1 < dlen then
      (Utf.rd text s).bind fun b => copy text dlen n (s + 1) (out ++ [UInt8.ofNat b])
    else copy text dlen n (s + 1) out

/-- `if (mp != NULL && mp[i].s.sp != 0 && ms > i)` and the loop after it, prog/libregexp9/regexp9.c:1177-1182
and 1195-1199; `mp` is an array of as many elements as the list has. -/
def copyGroup (text : Bytes) (dlen : Nat) (mp : Option (List Resub)) (ms i : Nat) (out : Bytes) : Res Empty Bytes :=
  match mp with
  | none => .ok out
  | some l =>
    match l[i]? with
    | none => .panic "undefined: read past the end of the array"
    | some m =>
      match m.sp with
      | none => .ok out
      | some b => if ms > i then copy text dlen (m.ep.getD 0 - b) b out else .ok out

/-- The loop of `regsub`, prog/libregexp9/regexp9.c:1173-1203.  The text that `mp` points into is `text`. -/
def subLoop (text : Bytes) (dlen : Nat) (mp : Option (List Resub)) (ms : Nat) : Bytes → Bytes → Res Empty Bytes
  | [], out => .ok out
  | 92 :: [], out => .ok out
  | 92 :: c :: sp, out =>
    if 48 ≤ c.toNat ∧ c.toNat ≤ 57 then
      (copyGroup text dlen mp ms (c.toNat - 48) out).bind fun out => subLoop text dlen mp ms sp out
    else subLoop text dlen mp ms sp (put dlen out c)
  | c :: sp, out =>
    if c = 38 then (copyGroup text dlen mp ms 0 out).bind fun out => subLoop text dlen mp ms sp out
    else subLoop text dlen mp ms sp (put dlen out c)

/-- `regsub`, prog/libregexp9/regexp9.c:1167-1205: what is in the destination, with the terminator. -/
def regsub (text sp : Bytes) (dlen : Nat) (mp : Option (List Resub)) (ms : Nat) : Res Empty Bytes :=
  (subLoop text dlen mp ms sp []).bind fun out =>
  if out.length < dlen then .ok (out ++ [0]) else .panic "undefined: write past the end of the buffer"

end Che.Prog.Regexp9
