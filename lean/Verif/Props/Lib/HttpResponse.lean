import Verif.Proofs.Lib.HttpResponse

namespace Che.Props
open Che.Lib Che.Lib.Tok Che.Lib.Http Che.Spec.Lib Che.Spec.Http

/-- The first line of a response: the version, three digits, and a text. -/
structure C107_Status (s version : Bytes) (status : Nat) : Prop where
  known : version = cstr "HTTP/1.0" ∨ version = cstr "HTTP/1.1"
  text : ∃ a b c txt, s = version ++ [32, UInt8.ofNat (48 + a), UInt8.ofNat (48 + b), UInt8.ofNat (48 + c), 32] ++ txt ++ [13, 10] ∧
    a < 10 ∧ b < 10 ∧ c < 10 ∧ 13 ∉ txt ∧ status = 100 * a + 10 * b + c

theorem digit_code {a : Nat} (h : a < 10) : 48 ≤ (UInt8.ofNat (48 + a)).toNat ∧ (UInt8.ofNat (48 + a)).toNat ≤ 57 ∧ (UInt8.ofNat (48 + a)).toNat - 48 = a := by
  have : (UInt8.ofNat (48 + a)).toNat = 48 + a := by rw [UInt8.toNat_ofNat']; omega
  omega

/-- The head of a response: the first line, the headers and an empty line. -/
structure C107_Head (s version : Bytes) (status : Nat) (hs : List (Bytes × Bytes)) : Prop where
  text : ∃ first, C107_Status first version status ∧ s = first ++ lines hs ++ [13, 10]
  headers : (∀ h ∈ hs, Header h ∧ 0 ∉ h.1 ∧ 0 ∉ h.2) ∧ hs.length ≤ 100

theorem head_ok (s version rest : Bytes) (status : Nat) (hs : List (Bytes × Bytes)) (h : C107_Head s version status hs) (re : Reader) (hw : whole re.src) (hb : bytes re.src = s ++ rest) :
    ∃ t t1 seen, read_status_line (Tok.new re) = (t1, some (version, (status : Int))) ∧ parseHeaders (rounds t1) t1 [] = .ok (t, some hs) ∧ Is t ⟨seen, rest⟩ := by
  obtain ⟨⟨first, ⟨hv, a, b, c, txt, rfl, ha, hb', hc, ht, rfl⟩, rfl⟩, hh⟩ := h
  have h0 := new_is re hw
  rw [hb] at h0
  obtain ⟨a1, a2, a3⟩ := digit_code ha
  obtain ⟨b1, b2, b3⟩ := digit_code hb'
  obtain ⟨c1, c2, c3⟩ := digit_code hc
  obtain ⟨t1, h1, i1⟩ := line_ok version txt (lines hs ++ [13, 10] ++ rest) (UInt8.ofNat (48 + a)) (UInt8.ofNat (48 + b)) (UInt8.ofNat (48 + c)) hv ⟨a1, a2⟩ ⟨b1, b2⟩ ⟨c1, c2⟩ ht
    (t := Tok.new re) (seen := []) (by simpa using h0)
  rw [a3, b3, c3] at h1
  obtain ⟨t2, h2, i2⟩ := rheaders_ok hs (rounds t1) t1 _ rest [] hh.1 (by
    rw [i1.rounds]; have := lines_length hs; simp; omega) (by simpa using hh.2) i1
  exact ⟨t2, t1, _, h1, h2, i2⟩

theorem parse_of {re : Reader} {t t1 : T} {version : Bytes} {status : Int} {hs : List (Bytes × Bytes)}
    (h1 : read_status_line (Tok.new re) = (t1, some (version, status))) (h2 : parseHeaders (rounds t1) t1 [] = .ok (t, some hs)) :
    parse_response re = (read_body t hs).bind fun (b, body) => .ok (b, body.map fun body => ⟨version, status, hs, body.2, body.1⟩) := by
  unfold parse_response
  rw [h1]
  simp only
  rw [h2]
  rfl

/-- C107: a response with a length of at most 1000 bytes is read, if no byte of its body is 255, and what follows
it is left in the stream. -/
theorem C107_length_partial (s version body rest : Bytes) (status : Nat) (hs : List (Bytes × Bytes)) (h : C107_Head s version status hs) (re : Reader) (hw : whole re.src)
    (hb : bytes re.src = s ++ (body ++ rest)) (v : Bytes) (hv : get_header hs (cstr "Content-Length") = some v) (hd : Spec.Opt.Decimal v body.length)
    (hl : body.length ≤ 1000) (hf : 255 ∉ body) :
    ∃ t seen, parse_response re = .ok (t, some ⟨version, status, hs, body, body.length⟩) ∧ Is t ⟨seen, rest⟩ := by
  obtain ⟨t, t1, seen, h1, h2, i2⟩ := head_ok s version _ status hs h re hw hb
  obtain ⟨t3, h3, i3⟩ := body_ok body.length t seen (body ++ rest) [] i2 (by simp) (by simpa using hf) (by simpa using hl)
  rw [List.take_left, List.nil_append] at h3
  rw [List.take_left, List.drop_left] at i3
  refine ⟨t3, _, ?_, i3⟩
  rw [parse_of h1 h2, read_body, hv]
  simp only
  rw [atoi_digits v _ hd (by omega), ok_bind, Int.toNat_natCast, h3, ok_bind]
  rfl

/-- C107: without a length, a response that says `Connection: close` and has at most 999 bytes is read to
the end of the stream; a longer one is refused. -/
theorem C107_close (s version body : Bytes) (status : Nat) (hs : List (Bytes × Bytes)) (h : C107_Head s version status hs) (re : Reader) (hw : whole re.src)
    (hb : bytes re.src = s ++ body) (hv : get_header hs (cstr "Content-Length") = none) (hc : get_header hs (cstr "Connection") = some (cstr "close")) :
    (body.length ≤ 999 → ∃ t, parse_response re = .ok (t, some ⟨version, status, hs, body, 0⟩)) ∧
    (999 < body.length → parse_response re = .panic "body buffer too small") := by
  obtain ⟨t, t1, seen, h1, h2, i2⟩ := head_ok s version _ status hs h re hw hb
  rw [parse_of h1 h2, read_body, hv]
  simp only
  rw [hc]
  simp only [if_true]
  constructor
  · intro hl
    obtain ⟨t3, h3, i3⟩ := rest_ok (rounds t) t seen body [] i2 (by rw [i2.rounds]; exact Nat.lt_succ_self _) (by simpa using hl)
    rw [h3]
    exact ⟨t3, rfl⟩
  · intro hl
    rw [rest_large (rounds t) t seen body [] i2 (by rw [i2.rounds]; exact Nat.lt_succ_self _) (by simp) (by simpa using hl)]
    rfl

/-- C107 fails for bodies with the byte 255: they are refused as if they ended there. -/
theorem C107_counterexample_byte (s version body rest : Bytes) (status : Nat) (hs : List (Bytes × Bytes)) (h : C107_Head s version status hs) (re : Reader) (hw : whole re.src)
    (hb : bytes re.src = s ++ (body ++ rest)) (v : Bytes) (hv : get_header hs (cstr "Content-Length") = some v) (hd : Spec.Opt.Decimal v body.length)
    (hl : body.length ≤ 1000) (hf : 255 ∈ body) : ∃ t, parse_response re = .ok (t, none) := by
  obtain ⟨t, t1, seen, h1, h2, i2⟩ := head_ok s version _ status hs h re hw hb
  have hlen : ((body ++ rest).takeWhile (· ≠ 255)).length ≤ body.length := by
    have : ∀ (b r : Bytes), 255 ∈ b → ((b ++ r).takeWhile (· ≠ 255)).length ≤ b.length := by
      intro b r
      induction b with
      | nil => intro h; cases h
      | cons x b ih =>
        intro hm
        rw [List.cons_append, List.takeWhile_cons]
        by_cases hx : x = 255
        · simp [hx]
        · rw [if_pos (by simpa using hx)]
          have := ih (by simpa [Ne.symm hx] using hm)
          simp only [List.length_cons]
          omega
    exact this body rest hf
  obtain ⟨t3, h3⟩ := body_ff body.length t seen (body ++ rest) [] i2 (.inl (by simpa using hf)) (by simp only [List.length_nil]; omega)
  refine ⟨t3, ?_⟩
  rw [parse_of h1 h2, read_body, hv]
  simp only
  rw [atoi_digits v _ hd (by omega), ok_bind, Int.toNat_natCast, h3, ok_bind]
  rfl

/-- C107 fails for bodies of more than 1000 bytes: the rest is written behind the array, over the length and what
follows the response. -/
theorem C107_counterexample_large (s version body rest : Bytes) (status : Nat) (hs : List (Bytes × Bytes)) (h : C107_Head s version status hs) (re : Reader) (hw : whole re.src)
    (hb : bytes re.src = s ++ (body ++ rest)) (v : Bytes) (hv : get_header hs (cstr "Content-Length") = some v) (hd : Spec.Opt.Decimal v body.length)
    (hl : 1000 < body.length) (hl2 : body.length < 2 ^ 31) (hf : 255 ∉ body) : parse_response re = .panic "undefined: write outside of an array" := by
  obtain ⟨t, t1, seen, h1, h2, i2⟩ := head_ok s version _ status hs h re hw hb
  have hlen : body.length ≤ ((body ++ rest).takeWhile (· ≠ 255)).length := by
    rw [List.takeWhile_append_of_pos (by intro y hy; simpa using fun e : y = 255 => hf (e ▸ hy))]
    simp
  have h3 := body_large body.length t seen (body ++ rest) [] i2 (by simp) (by simpa using hl) (by simp only [List.length_nil]; omega)
  rw [parse_of h1 h2, read_body, hv]
  simp only
  rw [atoi_digits v _ hd hl2, ok_bind, Int.toNat_natCast, h3]
  rfl

/-- C107 fails for lengths with a minus: no body is read, and the length of the response is negative. -/
theorem C107_counterexample_negative (s version rest : Bytes) (status : Nat) (hs : List (Bytes × Bytes)) (h : C107_Head s version status hs) (re : Reader) (hw : whole re.src)
    (hb : bytes re.src = s ++ rest) (v : Bytes) (n : Nat) (hv : get_header hs (cstr "Content-Length") = some ([45] ++ v)) (hd : Spec.Opt.Decimal v n) (hn : n ≤ 2 ^ 31) :
    ∃ t seen, parse_response re = .ok (t, some ⟨version, status, hs, [], -(n : Int)⟩) ∧ Is t ⟨seen, rest⟩ := by
  obtain ⟨t, t1, seen, h1, h2, i2⟩ := head_ok s version _ status hs h re hw hb
  refine ⟨t, seen, ?_, i2⟩
  rw [parse_of h1 h2, read_body, hv]
  simp only
  rw [atoi_minus v n hd hn, ok_bind, show (-(n : Int)).toNat = 0 by omega]
  rfl

/-- C107 fails for responses with neither header: `strcmp` gets a null pointer. -/
theorem C107_counterexample_null (s version rest : Bytes) (status : Nat) (hs : List (Bytes × Bytes)) (h : C107_Head s version status hs) (re : Reader) (hw : whole re.src)
    (hb : bytes re.src = s ++ rest) (hv : get_header hs (cstr "Content-Length") = none) (hc : get_header hs (cstr "Connection") = none) :
    parse_response re = .panic "undefined: strcmp of NULL" := by
  obtain ⟨t, t1, seen, h1, h2, i2⟩ := head_ok s version _ status hs h re hw hb
  rw [parse_of h1 h2, read_body, hv]
  simp only
  rw [hc]
  rfl

/-- C107: what is read is a response: the first line, headers, an empty line or the end of the text, and the body. -/
theorem C107_sound_partial (re : Reader) (hw : whole re.src) (t : T) (r : Response) (h : parse_response re = .ok (t, some r)) :
    ∃ first hs tl rest status, C107_Status first r.version status ∧ r.status = status ∧ bytes re.src = first ++ lines hs ++ tl ∧ EndOf tl rest ∧ (∀ h ∈ hs, Header h) ∧
      r.headers = hs.map stored ∧ hs.length ≤ 100 ∧
      ((∃ v n, get_header r.headers (cstr "Content-Length") = some v ∧ atoi v = .ok n ∧ n.toNat ≤ rest.length ∧ r.body = rest.take n.toNat ∧ 255 ∉ r.body ∧ r.content_length = n) ∨
       (get_header r.headers (cstr "Content-Length") = none ∧ get_header r.headers (cstr "Connection") = some (cstr "close") ∧ r.body = rest)) := by
  have h0 := new_is re hw
  unfold parse_response at h
  obtain ⟨t1, o1, e1⟩ : ∃ a b, read_status_line (Tok.new re) = (a, b) := ⟨_, _, rfl⟩
  rw [e1] at h
  cases o1 with
  | none => simp at h
  | some x =>
    obtain ⟨version, st⟩ := x
    obtain ⟨a, b, c, txt, r1, hr1, hv, ha, hb, hc, ht, rfl, i1⟩ := line_inv h0 e1
    simp only at h
    obtain ⟨⟨t2, o2⟩, h2, h3⟩ := Res.bind_eq_ok' h
    cases o2 with
    | none => simp at h3
    | some hs =>
      simp only at h3
      obtain ⟨hs0, tl, rest, seen', a1, a2, a3, a4, a5, i2⟩ := rheaders_inv _ t1 _ r1 [] (by simp) i1 h2
      obtain ⟨⟨t3, o3⟩, h4, h5⟩ := Res.bind_eq_ok' h3
      cases o3 with
      | none => simp at h5
      | some bd =>
        obtain ⟨n, body⟩ := bd
        simp only [Option.map_some, Res.ok.injEq, Prod.mk.injEq, Option.some.injEq] at h5
        obtain ⟨-, rfl⟩ := h5
        have dc : ∀ x : UInt8, 48 ≤ x.toNat ∧ x.toNat ≤ 57 → UInt8.ofNat (48 + (x.toNat - 48)) = x := by
          intro x hx
          rw [show 48 + (x.toNat - 48) = x.toNat by omega]
          simp
        refine ⟨version ++ [32, a, b, c, 32] ++ txt ++ [13, 10], hs0, tl, rest, _, ⟨hv, a.toNat - 48, b.toNat - 48, c.toNat - 48, txt, ?_, by omega, by omega, by omega, ht, rfl⟩,
          rfl, ?_, a2, a3, by simpa using a4, by simpa using a5, ?_⟩
        · rw [dc a ha, dc b hb, dc c hc]
        · rw [hr1, a1]; simp
        · simp only
          unfold read_body at h4
          cases hcl : get_header hs (cstr "Content-Length") with
          | some v =>
            rw [hcl] at h4
            simp only at h4
            obtain ⟨n', k1, k2⟩ := Res.bind_eq_ok' h4
            obtain ⟨⟨t4, o4⟩, k3, k4⟩ := Res.bind_eq_ok' k2
            cases o4 with
            | none => simp at k4
            | some bd =>
              simp only [Option.map_some, Res.ok.injEq, Prod.mk.injEq, Option.some.injEq] at k4
              obtain ⟨-, rfl, rfl⟩ := k4
              obtain ⟨m1, m2, m3⟩ := body_inv _ t2 _ rest [] i2 k3
              rw [List.nil_append] at m2
              exact .inl ⟨v, n', rfl, k1, m1, m2, by rw [m2]; exact m3, rfl⟩
          | none =>
            rw [hcl] at h4
            simp only at h4
            right
            cases hcn : get_header hs (cstr "Connection") with
            | none => rw [hcn] at h4; cases h4
            | some v =>
              rw [hcn] at h4
              simp only at h4
              split at h4
              · rename_i hv'
                subst hv'
                obtain ⟨⟨t4, bd⟩, k1, k2⟩ := Res.bind_eq_ok' h4
                simp only [Res.ok.injEq, Prod.mk.injEq, Option.some.injEq] at k2
                obtain ⟨-, -, rfl⟩ := k2
                refine ⟨rfl, rfl, ?_⟩
                by_cases hl : rest.length ≤ 999
                · obtain ⟨t5, h5, _⟩ := rest_ok (rounds t2) t2 _ rest [] i2 (by rw [i2.rounds]; exact Nat.lt_succ_self _) (by simpa using hl)
                  rw [h5] at k1
                  simp only [Res.ok.injEq, Prod.mk.injEq, List.nil_append] at k1
                  exact k1.2.symm
                · rw [rest_large (rounds t2) t2 _ rest [] i2 (by rw [i2.rounds]; exact Nat.lt_succ_self _) (by simp) (by simp; omega)] at k1
                  cases k1
              · cases h4

/-- C107 fails for texts that end after the headers: they are taken for responses. -/
theorem C107_counterexample_end :
    (match parse_response (Reader.ofBuffer (cstr "HTTP/1.1 200 OK" ++ [13, 10] ++ cstr "Content-Length: 0" ++ [13, 10])) with
      | .ok (_, some r) => some (r.status, r.body) | _ => none) = some (200, []) := by
  decide +kernel

/-- C107 on a response. -/
example :
    (match parse_response (Reader.ofBuffer (cstr "HTTP/1.0 404 Not Found" ++ [13, 10] ++ cstr "Server: x" ++ [13, 10] ++ cstr "Content-Length: 5" ++ [13, 10, 13, 10] ++ cstr "helloworld")) with
      | .ok (_, some r) => some (r.version, r.status, r.headers.length, r.body) | _ => none) = some (cstr "HTTP/1.0", 404, 2, cstr "hello") := by
  decide +kernel
end Che.Props
