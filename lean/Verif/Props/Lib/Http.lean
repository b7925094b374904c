import Verif.Proofs.Lib.HttpWrite

namespace Che.Props
open Che.Lib Che.Lib.Tok Che.Lib.Http Che.Spec.Lib Che.Spec.Http

/-- C104: a request with at most 100 headers is read, and what follows it is left in the stream.  The
path is what is before the question mark and the query what is after it; the name of the file is what is after the
last slash of the path. -/
theorem C104_read (m u v : Bytes) (hs : List (Bytes × Bytes)) (rest : Bytes) (br : Reader) (hw : whole br.src)
    (h : IsRequest (bytes br.src) m u v hs rest) (hl : hs.length ≤ 100) :
    ∃ t r seen, read_request br = .ok (t, some r) ∧ Is t ⟨seen, rest⟩ ∧ r.method = m ∧ r.uri = u ∧ r.version = v ∧ r.headers = hs ∧ r.params = [] ∧
      (0 ∉ u → Address u r.path r.query ∧ FileName r.path r.filename) := by
  obtain ⟨t, h1, seen, h2⟩ := request_ok _ m u v hs rest h hl br hw rfl
  refine ⟨t, _, seen, h1, h2, rfl, rfl, rfl, rfl, rfl, ?_⟩
  intro h0
  exact query_spec { empty with method := m, uri := u, version := v } h0 rfl rfl

/-- C104: nothing else is read. -/
theorem C104_sound (br : Reader) (hw : whole br.src) (t : T) (r : Request) (h : read_request br = .ok (t, some r)) :
    ∃ rest, IsRequest (bytes br.src) r.method r.uri r.version r.headers rest ∧ r.headers.length ≤ 100 := by
  rcases request_inv br hw with ⟨t', h1⟩ | ⟨t', m, u, v, hs, rest, h1, h2, h3⟩ | ⟨h1, _⟩
  · rw [h1] at h
    simp at h
  · rw [h1] at h
    simp only [Res.ok.injEq, Prod.mk.injEq, Option.some.injEq] at h
    obtain ⟨-, rfl⟩ := h
    exact ⟨rest, h2, h3⟩
  · rw [h1] at h; cases h

/-- C104: so the parts of a request are determined by its text. -/
theorem C104_unique (s m u v m' u' v' : Bytes) (hs hs' : List (Bytes × Bytes)) (rest rest' : Bytes) (h : IsRequest s m u v hs rest) (h' : IsRequest s m' u' v' hs' rest')
    (hl : hs.length ≤ 100) (hl' : hs'.length ≤ 100) : m = m' ∧ u = u' ∧ v = v' ∧ hs = hs' ∧ rest = rest' := by
  obtain ⟨t, r, seen, h1, h2, rfl, rfl, rfl, rfl, -⟩ := C104_read m u v hs rest (Reader.ofBuffer s) rfl h hl
  obtain ⟨t', r', seen', h1', h2', rfl, rfl, rfl, rfl, -⟩ := C104_read m' u' v' hs' rest' (Reader.ofBuffer s) rfl h' hl'
  rw [h1] at h1'
  simp only [Res.ok.injEq, Prod.mk.injEq, Option.some.injEq] at h1'
  obtain ⟨rfl, rfl⟩ := h1'
  refine ⟨rfl, rfl, rfl, rfl, ?_⟩
  have e := h.text.symm.trans h'.text
  exact List.append_cancel_left e

/-- C104 fails for requests with more than 100 headers: the next one is written behind the array.  And this is
all that can go wrong. -/
theorem C104_counterexample_many (br : Reader) (hw : whole br.src) :
    (∀ m u v hs rest, bytes br.src = m ++ [32] ++ u ++ [32] ++ v ++ [13, 10] ++ lines hs ++ rest → (32 ∉ m ∧ m.length < 10) → (32 ∉ u ∧ u.length < 1024) →
      (13 ∉ v ∧ v.length < 10) → (∀ h ∈ hs, Header h) → hs.length = 100 → ¬ [13, 10] <+: rest →
      read_request br = .panic "undefined: write outside of an array") ∧
    ((∃ t r, read_request br = .ok (t, r)) ∨
      ∃ m u v hs rest, bytes br.src = m ++ [32] ++ u ++ [32] ++ v ++ [13, 10] ++ lines hs ++ rest ∧ (∀ h ∈ hs, Header h) ∧ hs.length = 100 ∧ ¬ [13, 10] <+: rest) := by
  constructor
  · intro m u v hs rest hb hm hu hv hh hl hp
    have h0 := new_is br hw
    rw [hb, List.append_assoc _ (lines hs)] at h0
    obtain ⟨t1, h1, i1⟩ := first_ok m u v _ hm hu hv h0
    have h2 := headers_many hs (rounds t1) t1 _ rest [] hh (by
      rw [i1.rounds]; have := lines_length hs; simp; omega) (by simpa using hl) i1 hp
    unfold read_request
    rw [h1]
    simp only
    rw [h2]
    rfl
  · rcases request_inv br hw with ⟨t', h1⟩ | ⟨t', m, u, v, hs, rest, h1, h2, h3⟩ | ⟨h1, h2⟩
    · exact .inl ⟨_, _, h1⟩
    · exact .inl ⟨_, _, h1⟩
    · exact .inr h2

/-- C105: the text written is the request, with the method and the address cut at 999 bytes. -/
theorem C105_written_partial (r : Request) (hv : ∀ p ∈ r.params, (p.2.flatMap percent).length < 1000) (h0 : 0 ∉ text r) (hl : (text r).length < 2 ^ 61) :
    ∃ w, write_request Writer.toFile r = .ok (w, w.out.length) ∧
      w.out = (r.method ++ [32] ++ r.uri).take 999 ++ query r.params ++ [32] ++ r.version ++ [13, 10] ++ lines r.headers ++ [13, 10] := by
  have hsub : ∀ c ∈ cut r, c ∈ text r := by
    intro c hc
    simp only [cut, text, List.mem_append] at hc ⊢
    rcases hc with (((((hc | hc) | hc) | hc) | hc) | hc) | hc
    · have := List.mem_of_mem_take hc
      simp only [List.mem_append] at this
      tauto
    all_goals tauto
  have hlen : (cut r).length ≤ (text r).length := by
    simp only [cut, text, List.length_append, List.length_take]
    omega
  have h := request_written Writer.toFile r hv (fun h => h0 (hsub _ h)) (by omega)
  have hw : (Writer.toFile.write (cut r)).1.out = cut r ∧ (Writer.toFile.write (cut r)).2 = (cut r).length := by
    simp [Writer.write, Writer.toFile, WKind.write, fileWrite]
  refine ⟨(Writer.toFile.write (cut r)).1, ?_, by rw [hw.1]; rfl⟩
  rw [h, hw.1, if_neg (by rw [hw.2]; simp), hw.2]

/-- C105: parameters of more than 999 bytes when encoded are read from outside of the buffer. -/
theorem C105_counterexample_param (w : Writer) (r : Request) (h : ∃ p ∈ r.params, 1000 ≤ (p.2.flatMap percent).length) :
    write_request w r = .panic "undefined: read outside of an array" := by
  unfold write_request
  simp only
  rw [params_undefined _ _ _ h]
  rfl

theorem query_chars (ps : List (Bytes × Bytes)) (x : UInt8) (hx : ¬ alnum x) (hx2 : x ≠ 37 ∧ x ≠ 61 ∧ x ≠ 38 ∧ x ≠ 63) (hp : ∀ p ∈ ps, x ∉ p.1) : x ∉ query ps := by
  have hpc : ∀ c : UInt8, x ∉ percent c := by
    intro c hc
    rw [percent_eq] at hc
    split at hc
    · rename_i h
      simp only [List.mem_singleton] at hc
      subst hc
      exact hx (url_plain _ h).1
    · simp only [List.mem_cons, List.not_mem_nil, or_false] at hc
      rcases hc with hc | hc | hc
      · exact hx2.1 hc
      · exact hx (hc ▸ (url_byte c).2.1)
      · exact hx (hc ▸ (url_byte c).2.2)
  have hpt : ∀ (ps : List (Bytes × Bytes)) (first : Bool), (∀ p ∈ ps, x ∉ p.1) → x ∉ ptext first ps := by
    intro ps
    induction ps with
    | nil => intro _ _ h; cases h
    | cons p ps ih =>
      intro first hp h
      obtain ⟨n, v⟩ := p
      simp only [ptext, List.mem_append, List.mem_flatMap, List.mem_singleton] at h
      rcases h with (h | (h | h) | h) | h
      · cases first <;> simp [sepOf] at h <;> tauto
      · exact hp (n, v) (by simp) h
      · exact hx2.2.1 h
      · obtain ⟨c, _, h⟩ := h; exact hpc c h
      · exact ih false (fun p hp' => hp p (by simp [hp'])) h
  rw [← ptext_query]
  exact hpt ps true hp

/-- A request that can be sent. -/
structure C105_Clean (r : Request) : Prop where
  method : 32 ∉ r.method ∧ r.method.length < 10
  uri : 32 ∉ r.uri ∧ 63 ∉ r.uri ∧ (r.method ++ [32] ++ r.uri).length ≤ 999
  params : ∀ p ∈ r.params, 32 ∉ p.1 ∧ (p.2.flatMap percent).length < 1000
  query : (r.uri ++ query r.params).length < 1024
  version : 13 ∉ r.version ∧ r.version.length < 10
  headers : (∀ h ∈ r.headers, Header h) ∧ r.headers.length ≤ 100
  nul : 0 ∉ text r

theorem lines_bound (hs : List (Bytes × Bytes)) (h : ∀ x ∈ hs, Header x) : (lines hs).length ≤ 2052 * hs.length := by
  induction hs with
  | nil => simp [lines]
  | cons x hs ih =>
    have := ih (fun y hy => h y (by simp [hy]))
    obtain ⟨-, -, -, h4, h5⟩ := h x (by simp)
    rw [lines_cons]
    simp only [List.length_append, List.length_cons, List.length_nil]
    omega

/-- C105: such a request is read as it was sent: the path is the address and the query has the parameters. -/
theorem C105_round_trip (r : Request) (h : C105_Clean r) :
    ∃ w t r', write_request Writer.toFile r = .ok (w, w.out.length) ∧ w.out = text r ∧ read_request (Reader.ofFile w.out) = .ok (t, some r') ∧
      r'.method = r.method ∧ r'.version = r.version ∧ r'.headers = r.headers ∧ r'.uri = r.uri ++ query r.params ∧
      r'.path = r.uri ∧ r'.query = (query r.params).drop 1 := by
  obtain ⟨hm, hu, hp, hq, hv, hh, h0⟩ := h
  have hl : (text r).length < 2 ^ 61 := by
    have := lines_bound r.headers hh.1
    simp only [text, List.length_append, List.length_cons, List.length_nil] at *
    omega
  obtain ⟨w, h1, h2⟩ := C105_written_partial r (fun p hp' => (hp p hp').2) h0 hl
  rw [List.take_of_length_le hu.2.2] at h2
  have hreq : IsRequest (bytes (Reader.ofFile w.out).src) r.method (r.uri ++ query r.params) r.version r.headers [] := by
    refine ⟨?_, hm, ⟨?_, hq⟩, hv, hh.1⟩
    · show w.out = _
      rw [h2]; simp
    · simp only [List.mem_append, not_or]
      exact ⟨hu.1, query_chars _ 32 (by unfold alnum; decide) (by decide) (fun p hp' => (hp p hp').1)⟩
  obtain ⟨t, r', seen, k1, k2, k3, k4, k5, k6, k7, k8⟩ := C104_read _ _ _ _ _ (Reader.ofFile w.out) rfl hreq hh.2
  have h00 : 0 ∉ r.uri ++ query r.params := by
    intro hc
    apply h0
    simp only [text, List.mem_append] at hc ⊢
    tauto
  obtain ⟨⟨a1, a2⟩, -⟩ := k8 h00
  refine ⟨w, t, r', h1, h2, k1, k3, k5, k6, k4, ?_⟩
  cases hps : r.params with
  | nil =>
    have hq0 : query ([] : List (Bytes × Bytes)) = [] := rfl
    rw [hps, hq0, List.append_nil] at a2
    rcases a2 with ⟨e1, e2⟩ | e
    · exact ⟨e1.symm, by rw [e2]; rfl⟩
    · exact absurd (by rw [e]; simp) hu.2.1
  | cons p ps =>
    obtain ⟨q, hq'⟩ : ∃ q, query r.params = 63 :: q := by rw [hps]; exact ⟨_, rfl⟩
    rw [hps] at hq'
    rw [hps, hq'] at a2
    rcases a2 with ⟨e1, e2⟩ | e
    · exact absurd (by rw [← e1]; simp) a1
    · have : r.uri ++ 63 :: q = r'.path ++ 63 :: r'.query := by rw [e]; simp
      have hs : r.uri = r'.path ∧ q = r'.query := by
        have tw : ∀ (a b c d : Bytes), 63 ∉ a → 63 ∉ c → a ++ 63 :: b = c ++ 63 :: d → a = c ∧ b = d := by
          intro a
          induction a with
          | nil =>
            intro b c d _ hc e
            cases c with
            | nil => simpa using e
            | cons y c => simp only [List.nil_append, List.cons_append, List.cons.injEq] at e; exact absurd (by simp [← e.1]) hc
          | cons x a ih =>
            intro b c d ha hc e
            cases c with
            | nil => simp only [List.nil_append, List.cons_append, List.cons.injEq] at e; exact absurd (by simp [e.1]) ha
            | cons y c =>
              simp only [List.cons_append, List.cons.injEq] at e
              have := ih b c d (fun h => ha (by simp [h])) (fun h => hc (by simp [h])) e.2
              exact ⟨by rw [e.1, this.1], this.2⟩
        exact tw _ _ _ _ hu.2.1 a1 this
      rw [hq']
      exact ⟨hs.1.symm, hs.2.symm⟩

/-- C105: the values of the parameters can be read from the query. -/
theorem C105_values (v : Bytes) : unpercent (v.flatMap percent) = some v := by
  induction v with
  | nil => rfl
  | cons c v ih =>
    rw [List.flatMap_cons, percent_eq]
    split
    · rename_i h
      rw [List.singleton_append, unpercent_plain _ _ (url_plain c h).2, ih]
      rfl
    · simp only [List.cons_append, List.nil_append]
      rw [unpercent, if_pos rfl]
      simp only [(url_byte c).1, ih]

/-- C105: requests made with `newreq`, for the methods known. -/
theorem C105_new (method : Nat) (path : Bytes) :
    (∀ name, (method, name) ∈ [(1, cstr "GET"), (2, cstr "POST"), (3, cstr "HEAD")] → path.length < 1024 →
      ∃ r, newreq method path = .ok r ∧ r.method = name ∧ r.uri = path ∧ r.version = cstr "HTTP/1.0" ∧ r.params = [] ∧ r.headers = []) ∧
    (method = 0 ∨ 3 < method → newreq method path = .panic "init_request failed") := by
  constructor
  · intro name hm hl
    simp only [List.mem_cons, Prod.mk.injEq, List.not_mem_nil, or_false] at hm
    rcases hm with ⟨rfl, rfl⟩ | ⟨rfl, rfl⟩ | ⟨rfl, rfl⟩
    all_goals
      rw [newreq, strcpy, if_pos hl]
      exact ⟨_, rfl, rfl, rfl, rfl, rfl, rfl⟩
  · intro h
    have : methodstring method = none := by
      rcases method with _ | _ | _ | _ | m
      · rfl
      all_goals first | omega | rfl
    rw [newreq, this]

/-- C105: a parameter is added at the end if there is room for it, and is outside of an array else: for 100 parameters, 1023 bytes
of name and 1024 of value. -/
theorem C105_param (r : Request) (name data : Bytes) :
    (r.params.length < 100 ∧ name.length < 1024 ∧ data.length ≤ 1024 → reqparam r name data = .ok { r with params := r.params ++ [(name, data)] }) ∧
    (¬ (r.params.length < 100 ∧ name.length < 1024 ∧ data.length ≤ 1024) → reqparam r name data = .panic "undefined: write outside of an array") := by
  unfold reqparam strcpy
  constructor
  · rintro ⟨a, b, c⟩
    rw [if_neg (by omega), if_pos b]
    simp only [Res.bind]
    rw [if_neg (by omega)]
  · intro h
    by_cases a : r.params.length ≥ 100
    · rw [if_pos a]
    · rw [if_neg a]
      by_cases b : name.length < 1024
      · rw [if_pos b]
        simp only [Res.bind]
        rw [if_pos (by omega)]
      · rw [if_neg b]; rfl

/-- C105: so is a header: for 100 headers, 1023 bytes of name and 1023 of value. -/
theorem C105_set (r : Request) (name value : Bytes) :
    (r.headers.length < 100 ∧ name.length < 1024 ∧ value.length < 1024 → set_header r name value = .ok { r with headers := r.headers ++ [(name, value)] }) ∧
    (¬ (r.headers.length < 100 ∧ name.length < 1024 ∧ value.length < 1024) → set_header r name value = .panic "undefined: write outside of an array") := by
  unfold set_header strcpy
  constructor
  · rintro ⟨a, b, c⟩
    rw [if_neg (by omega), if_pos b]
    simp only [Res.bind]
    rw [if_pos c]
  · intro h
    by_cases a : r.headers.length ≥ 100
    · rw [if_pos a]
    · rw [if_neg a]
      by_cases b : name.length < 1024
      · rw [if_pos b]
        simp only [Res.bind]
        rw [if_neg (by omega)]
      · rw [if_neg b]; rfl

/-- C105 fails for addresses of 996 bytes or more: the end is lost. -/
theorem C105_counterexample_cut (path : Bytes) (h0 : 0 ∉ path) (h1 : 996 ≤ path.length) (h2 : path.length < 1024) :
    ∃ r w, newreq 1 path = .ok r ∧ write_request Writer.toFile r = .ok (w, w.out.length) ∧
      w.out = cstr "GET " ++ path.take 995 ++ cstr " HTTP/1.0" ++ [13, 10] ++ [13, 10] := by
  have hn : newreq 1 path = .ok { empty with method := cstr "GET", uri := path, version := cstr "HTTP/1.0" } := by
    rw [newreq, strcpy, if_pos h2]; rfl
  have ht : text { empty with method := cstr "GET", uri := path, version := cstr "HTTP/1.0" } = cstr "GET " ++ path ++ (cstr " HTTP/1.0" ++ [13, 10] ++ [13, 10]) := by
    simp only [text, lines, empty, query]
    rw [show cstr "GET " = cstr "GET" ++ [32] by decide, show cstr " HTTP/1.0" = [32] ++ cstr "HTTP/1.0" by decide]
    simp
  obtain ⟨w, a, b⟩ := C105_written_partial { empty with method := cstr "GET", uri := path, version := cstr "HTTP/1.0" } (by intro p hp; cases hp) (by
    rw [ht]
    simp only [List.mem_append, not_or]
    exact ⟨⟨by decide, h0⟩, by decide⟩) (by
    rw [ht]
    simp only [List.length_append, show (cstr "GET ").length = 4 by decide, show (cstr " HTTP/1.0").length = 9 by decide, List.length_cons, List.length_nil]
    omega)
  refine ⟨_, w, hn, a, ?_⟩
  rw [b]
  simp only [lines, empty, query]
  have e : (cstr "GET" ++ [32] ++ path).take 999 = cstr "GET " ++ path.take 995 := by
    rw [show cstr "GET" ++ [32] = cstr "GET " by decide, List.take_append, show (cstr "GET ").length = 4 by decide, List.take_of_length_le (by decide)]
  rw [e, show cstr " HTTP/1.0" = [32] ++ cstr "HTTP/1.0" by decide]
  simp

/-- C105 fails for values with line ends: one header is written and two are read. -/
theorem C105_counterexample_injection :
    (match (newreq 1 (cstr "/")).bind fun r => (set_header r (cstr "A") [98, 13, 10, 67, 58, 32, 100]).bind fun r => write_request Writer.toFile r with
      | .ok (w, _) => match read_request (Reader.ofFile w.out) with | .ok (_, some r) => r.headers | _ => []
      | _ => []) = [(cstr "A", cstr "b"), (cstr "C", cstr "d")] := by
  decide +kernel

/-- C106: `get_header` finds the first header with the name. -/
theorem C106_header (hs : List (Bytes × Bytes)) (name : Bytes) :
    (∀ v, get_header hs name = some v ↔ ∃ a b, hs = a ++ (name, v) :: b ∧ ∀ h ∈ a, h.1 ≠ name) ∧
    (get_header hs name = none ↔ ∀ h ∈ hs, h.1 ≠ name) := by
  induction hs with
  | nil => simp [get_header]
  | cons h hs ih =>
    obtain ⟨n, w⟩ := h
    unfold get_header
    by_cases hn : name = n
    · subst hn
      rw [if_pos rfl]
      constructor
      · intro v
        constructor
        · intro e
          simp only [Option.some.injEq] at e
          subst e
          exact ⟨[], hs, rfl, by intro _ h; cases h⟩
        · rintro ⟨a, b, e, ha⟩
          cases a with
          | nil => simp at e; rw [e.1]
          | cons x a => simp only [List.cons_append, List.cons.injEq] at e; exact absurd (by rw [← e.1]) (ha x (by simp))
      · simp
    · rw [if_neg hn]
      constructor
      · intro v
        rw [ih.1 v]
        constructor
        · rintro ⟨a, b, rfl, ha⟩
          exact ⟨(n, w) :: a, b, rfl, by
            intro x hx
            rcases List.mem_cons.mp hx with rfl | hx
            · exact fun e => hn e.symm
            · exact ha x hx⟩
        · rintro ⟨a, b, e, ha⟩
          cases a with
          | nil => simp only [List.nil_append, List.cons.injEq, Prod.mk.injEq] at e; exact absurd e.1.1.symm hn
          | cons x a =>
            simp only [List.cons_append, List.cons.injEq] at e
            exact ⟨a, b, e.2, fun y hy => ha y (by simp [hy])⟩
      · rw [ih.2]
        constructor
        · intro h x hx
          rcases List.mem_cons.mp hx with rfl | hx
          · exact fun e => hn e.symm
          · exact h x hx
        · intro h x hx
          exact h x (by simp [hx])

/-- C106: the method is recognised whatever the case of its letters. -/
theorem C106_method (s : Bytes) :
    (method_from_string s = 1 ↔ s.map asciiLower = cstr "get") ∧ (method_from_string s = 2 ↔ s.map asciiLower = cstr "post") ∧
    (method_from_string s = 3 ↔ s.map asciiLower = cstr "head") ∧ method_from_string s ≤ 3 := by
  have e1 : (cstr "GET").map asciiLower = cstr "get" := by decide +kernel
  have e2 : (cstr "POST").map asciiLower = cstr "post" := by decide +kernel
  have e3 : (cstr "HEAD").map asciiLower = cstr "head" := by decide +kernel
  have n1 : cstr "get" ≠ cstr "post" := by decide
  have n2 : cstr "get" ≠ cstr "head" := by decide
  have n3 : cstr "post" ≠ cstr "head" := by decide
  unfold method_from_string
  simp only [C57_casecmp, e1, e2, e3]
  generalize s.map asciiLower = x
  by_cases h1 : x = cstr "get"
  · simp [h1, n1, n2]
  · by_cases h2 : x = cstr "post"
    · simp [h2, n1.symm, n3]
    · by_cases h3 : x = cstr "head"
      · simp [h3, n2.symm, n3.symm]
      · simp [h1, h2, h3]

/-- C106 fails for headers in lower case, which HTTP allows. -/
theorem C106_counterexample_case : get_header [(cstr "content-length", cstr "5")] (cstr "Content-Length") = none := by decide

/-- C104 to C106 on a request. -/
example : (match (newreq 1 (cstr "/a/b.html")).bind fun r => (reqparam r (cstr "q") (cstr "x y&z")).bind fun r => (reqparam r (cstr "n") (cstr "1")).bind fun r =>
        (set_header r (cstr "Host") (cstr "example.org")).bind fun r => write_request Writer.toFile r with
      | .ok (w, _) => match read_request (Reader.ofFile w.out) with | .ok (_, some r) => [r.method, r.path, r.query, r.filename, (get_header r.headers (cstr "Host")).getD []] | _ => []
      | _ => []) = [cstr "GET", cstr "/a/b.html", cstr "q=x%20y%26z&n=1", cstr "b.html", cstr "example.org"] := by
  decide +kernel
end Che.Props
