import Verif.Wire.Props
/-
C178: the size of messages.
-/
set_option autoImplicit false
namespace Veri
namespace Wire

/-- What the library (google.golang.org/grpc v1.47.0, go.mod:26) takes in one message if no other limit is set: neither
node/nodeservice.go:163 nor util/connpool.go:103-105 nor node/nodeservice.go:181-183 sets one. -/
def limit : Nat := 4 * 1024 * 1024

/-- A message that is sent; `none`: the call fails. -/
def Msg.deliver {α : Type} (M : Msg α) (a : α) : Option α := if (M.write a).length ≤ limit then M.read (M.write a) else none

/-- data/insert.go:26-35, node/datasourceclient.go:66-76: what a node sends to a source for an insert that it has got. -/
def forward (r : InsertionRequest) : InsertionRequest :=
  { r with config := some ⟨(r.config.getD ⟨0, 0⟩).ttl, 1⟩ }

end Wire
open Wire

/-- C178, full statement: the datum of an insert that reached a node can be handed on: to a source (data/insert.go), to a client or node
that searches (node/nodeservice.go: `SearchStream`), to one that reads the data set (`DataStream`), and in the answer of `Search` with
any others.  FALSE of the code. -/
def C178_handed_on_statement : Prop :=
  ∀ (rs : List InsertionRequest), (∀ r ∈ rs, insertionRequest.deliver r = some r) →
    (∀ r ∈ rs, insertionRequest.deliver (forward r) = some (forward r)) ∧
    (∀ r ∈ rs, ∀ score, scoredDatum.deliver ⟨score, r.datum⟩ = some ⟨score, r.datum⟩) ∧
    (∀ r ∈ rs, ∀ d, r.datum = some d → datum.deliver d = some d) ∧
    (∀ scores : List F64, searchResponse.deliver ((scores.zip rs).map fun p => ⟨p.1, p.2.datum⟩) =
      some ((scores.zip rs).map fun p => ⟨p.1, p.2.datum⟩))

namespace Wire

theorem varintN_length : ∀ (k n : Nat), (varintN k n).length ≤ k
  | 0, _ => by simp [varintN]
  | k + 1, n => by
    unfold varintN
    split
    · simp
    · have := varintN_length k (n / 128); simp; omega

theorem varint_length (n : Nat) : (varint n).length ≤ 10 := varintN_length 10 n

theorem deliver_iff {α : Type} {M : Msg α} (h : Sent α M) (a : α) : M.deliver a = some a ↔ (M.write a).length ≤ limit := by
  unfold Msg.deliver
  constructor
  · intro hd
    split at hd
    · assumption
    · cases hd
  · intro hl
    rw [if_pos hl]
    exact h.good.read (Nat.lt_of_le_of_lt hl (by decide))

theorem request_length (r : InsertionRequest) : (insertionRequest.write r).length =
    (writeAll (insertConfig.opt.toks 1 r.config)).length + (writeAll (datum.opt.toks 2 r.datum)).length +
      (writeAll (string.toks 3 r.dataName)).length := by
  simp [Msg.write, Msg.toks, insertionRequest, writeAll_append, Field.toks, Nat.add_assoc]

theorem scored_length (x : Scored) : (scoredDatum.write x).length =
    (writeAll (double.toks 1 x.score)).length + (writeAll (datum.opt.toks 2 x.datum)).length := by
  simp [Msg.write, Msg.toks, scoredDatum, writeAll_append, Field.toks]

theorem double_length (v : F64) : (writeAll (double.toks 1 v)).length ≤ 9 := by
  simp only [double]
  split
  · simp [writeAll]
  · have : (varint (8 * 1 + 1)).length = 1 := by decide
    simp only [writeAll_cons, Tok.write, List.length_append, le_length, this]
    simp [writeAll]

theorem uint64_length (k : Nat) (hk : k = 1 ∨ k = 2) (v : UInt64) : (writeAll (uint64.toks k v)).length ≤ 11 := by
  simp only [uint64]
  split
  · simp [writeAll]
  · have h1 : (varint (8 * k)).length = 1 := by rcases hk with rfl | rfl <;> decide
    have h2 := varint_length v.toNat
    simp only [writeAll_cons, Tok.write, List.length_append, h1]
    simp [writeAll]
    omega

theorem config_length (c : Option InsertConfig) : (writeAll (insertConfig.opt.toks 1 c)).length ≤ 24 := by
  cases c with
  | none => simp [Msg.opt, writeAll]
  | some c =>
    have h : (insertConfig.write c).length ≤ 22 := by
      have h1 := uint64_length 1 (.inl rfl) c.ttl
      have h2 := uint64_length 2 (.inr rfl) c.count
      simp only [Msg.write, Msg.toks, insertConfig, List.flatMap_cons, List.flatMap_nil, List.append_nil, writeAll_append, List.length_append,
        Field.toks]
      omega
    have hv : (varint (insertConfig.write c).length).length = 1 := by
      unfold varint varintN
      rw [if_pos (by omega)]
      rfl
    have h1 : (varint (8 * 1 + 2)).length = 1 := by decide
    simp only [Msg.opt, writeAll_cons, Tok.write, List.length_append, h1, hv]
    simp [writeAll]
    omega

theorem datum_length (d : Datum) : (datum.write d).length ≤ (writeAll (datum.opt.toks 2 (some d))).length := by
  simp only [Msg.opt, writeAll_cons, Tok.write, List.length_append]
  omega

end Wire

/-- C178, what holds: with room for the configuration of an insert, which is at most 24 bytes, the datum can be handed on to a source and
in the stream of a search, whatever the score. -/
theorem C178_handed_on_partial (r : InsertionRequest) (hr : (insertionRequest.write r).length + 24 ≤ limit) :
    insertionRequest.deliver r = some r ∧ insertionRequest.deliver (forward r) = some (forward r) ∧
    ∀ score, scoredDatum.deliver ⟨score, r.datum⟩ = some ⟨score, r.datum⟩ := by
  refine ⟨(deliver_iff .insertionRequest r).2 (by omega), (deliver_iff .insertionRequest _).2 ?_, fun score => (deliver_iff .scoredDatum _).2 ?_⟩
  · have := config_length (forward r).config
    rw [request_length] at hr ⊢
    simp only [forward] at this ⊢
    omega
  · have := double_length score
    rw [request_length] at hr
    rw [scored_length]
    simp only at this ⊢
    omega

/-- C178: if what is sent to a source arrives, then with the datum, the name of the data set and the time to live of the insert, and with a count
of one, so that it is not sent on again. -/
theorem C178_forwarded (r r' : InsertionRequest) (h : insertionRequest.deliver (forward r) = some r') :
    r'.datum = r.datum ∧ r'.dataName = r.dataName ∧
    ∃ c : InsertConfig, r'.config = some c ∧ c.count = 1 ∧ c.ttl = (match r.config with | some c => c.ttl | none => 0) := by
  have hl : (insertionRequest.write (forward r)).length ≤ limit := by
    unfold Msg.deliver at h
    split at h
    · assumption
    · cases h
  rw [(deliver_iff .insertionRequest _).2 hl] at h
  cases h
  refine ⟨rfl, rfl, _, rfl, rfl, ?_⟩
  cases hc : r.config <;> simp

/-- C178: it can always be sent to one that reads the data set. -/
theorem C178_streamed (r : InsertionRequest) (d : Datum) (h : insertionRequest.deliver r = some r) (hd : r.datum = some d) :
    datum.deliver d = some d := by
  rw [deliver_iff .insertionRequest] at h
  rw [deliver_iff .datum]
  have := datum_length d
  rw [request_length, hd] at h
  omega

/-- C178: an answer of `Search` reaches the client exactly if all its data together are small enough. -/
theorem C178_unary (xs : List Scored) : searchResponse.deliver xs = some xs ↔
    (xs.map fun x => 1 + (varint (scoredDatum.write x).length).length + (scoredDatum.write x).length).sum ≤ limit := by
  rw [deliver_iff .searchResponse]
  have : (searchResponse.write xs).length =
      (xs.map fun x => 1 + (varint (scoredDatum.write x).length).length + (scoredDatum.write x).length).sum := by
    have e : searchResponse.write xs = writeAll (xs.map fun x => .bytes 1 (scoredDatum.write x)) := by
      simp [Msg.write, Msg.toks, searchResponse, Field.toks, Msg.rep]
    rw [e]
    have h1 : (varint (8 * 1 + 2)).length = 1 := by decide
    induction xs with
    | nil => rfl
    | cons x xs ih =>
      simp only [List.map_cons, writeAll_cons, List.length_append, Tok.write, h1, List.sum_cons]
      have := ih (by simp [Msg.write, Msg.toks, searchResponse, Field.toks, Msg.rep])
      omega
  rw [this]

namespace Wire

/-- An insert of a label of `n` bytes. -/
def exBig (n : Nat) : InsertionRequest := ⟨none, some ⟨some ⟨[], [], 0, 0, 0, 0⟩, some ⟨0, List.replicate n 0⟩⟩, "x"⟩

theorem varint_four {n : Nat} (h1 : 2097152 ≤ n) (h2 : n < 268435456) : (varint n).length = 4 := by
  unfold varint varintN
  rw [if_neg (by omega)]
  unfold varintN
  rw [if_neg (by omega)]
  unfold varintN
  rw [if_neg (by omega)]
  unfold varintN
  rw [if_pos (by omega)]
  rfl

theorem exBig_datum {n : Nat} (h1 : 2097152 ≤ n) (h2 : n < 200000000) : (writeAll (datum.opt.toks 2 (exBig n).datum)).length = n + 17 := by
  have t2 : (varint (8 * 2 + 2)).length = 1 := by decide
  have hl : List.replicate n (0 : UInt8) ≠ [] := by
    intro e
    have := congrArg List.length e
    simp at this
    omega
  have hv : (datumValue.write ⟨0, List.replicate n 0⟩).length = n + 5 := by
    simp only [Msg.write, Msg.toks, datumValue, List.flatMap_cons, List.flatMap_nil, List.append_nil, Field.toks, uint64, bytes, if_true,
      if_neg hl, List.nil_append, writeAll_cons, Tok.write, List.length_append, t2, List.length_replicate, varint_four h1 (by omega)]
    simp [writeAll]
    omega
  have hk : writeAll (datumKey.opt.toks 1 (some ⟨[], [], 0, 0, 0, 0⟩)) = [10, 0] := by decide
  have hd : (datum.write ⟨some ⟨[], [], 0, 0, 0, 0⟩, some ⟨0, List.replicate n 0⟩⟩).length = n + 12 := by
    have e : datum.write ⟨some ⟨[], [], 0, 0, 0, 0⟩, some ⟨0, List.replicate n 0⟩⟩ =
        writeAll (datumKey.opt.toks 1 (some ⟨[], [], 0, 0, 0, 0⟩)) ++ writeAll (datumValue.opt.toks 2 (some ⟨0, List.replicate n 0⟩)) := by
      rw [← writeAll_append]
      simp [Msg.write, Msg.toks, datum, Field.toks]
    rw [e, hk]
    simp only [Msg.opt, writeAll_cons, Tok.write, List.length_append, t2, hv, varint_four (show 2097152 ≤ n + 5 by omega) (by omega)]
    simp [writeAll]
    omega
  simp only [exBig, Msg.opt, writeAll_cons, Tok.write, List.length_append, t2, hd, varint_four (show 2097152 ≤ n + 12 by omega) (by omega)]
  simp [writeAll]
  omega

theorem exBig_length {n : Nat} (h1 : 2097152 ≤ n) (h2 : n < 200000000) : (insertionRequest.write (exBig n)).length = n + 20 := by
  rw [request_length, exBig_datum h1 h2]
  have hn : (writeAll (string.toks 3 (exBig n).dataName)).length = 3 := by
    have : writeAll (string.toks 3 "x") = [26, 1, 120] := by decide
    show (writeAll (string.toks 3 "x")).length = 3
    rw [this]; rfl
  have hc : (writeAll (insertConfig.opt.toks 1 (exBig n).config)).length = 0 := rfl
  rw [hn, hc]
  omega

end Wire

/-- C178 fails: an insert of exactly the size that the node takes cannot be sent on to a source: with the configuration it is too long. -/
theorem C178_handed_on_fails : ¬ C178_handed_on_statement := by
  intro h
  have hr : insertionRequest.deliver (exBig 4194284) = some (exBig 4194284) := by
    rw [deliver_iff .insertionRequest, exBig_length (by decide) (by decide)]
    decide
  have := (h [exBig 4194284] (fun r h => by rw [List.mem_singleton.1 h]; exact hr)).1 _ (List.mem_singleton.2 rfl)
  rw [deliver_iff .insertionRequest, request_length] at this
  have e : (forward (exBig 4194284)).datum = (exBig 4194284).datum := rfl
  have hc : (writeAll (insertConfig.opt.toks 1 (forward (exBig 4194284)).config)).length = 4 := by
    have : writeAll (insertConfig.opt.toks 1 (some ⟨0, 1⟩)) = [10, 2, 16, 1] := by decide
    show (writeAll (insertConfig.opt.toks 1 (some ⟨0, 1⟩))).length = 4
    rw [this]; rfl
  rw [e, exBig_datum (by decide) (by decide), hc] at this
  simp only [limit] at this
  omega

namespace Wire

theorem exBig_scored {n : Nat} (h1 : 2097152 ≤ n) (h2 : n < 200000000) : (scoredDatum.write ⟨0, (exBig n).datum⟩).length = n + 17 := by
  have h0 : writeAll (double.toks 1 0) = [] := by decide
  rw [scored_length]
  simp only
  rw [exBig_datum h1 h2, h0, List.length_nil, Nat.zero_add]

theorem two_fail (x : Scored) (h : 2097152 ≤ (scoredDatum.write x).length) : searchResponse.deliver [x, x] = none := by
  have hn : ¬ searchResponse.deliver [x, x] = some [x, x] := by
    rw [C178_unary]
    simp only [List.map_cons, List.map_nil, List.sum_cons, List.sum_nil, limit]
    omega
  rw [deliver_iff .searchResponse] at hn
  unfold Msg.deliver
  rw [if_neg hn]

theorem exBig_both {n : Nat} (h1 : 2097152 ≤ n) (h2 : n + 20 ≤ limit) : insertionRequest.deliver (exBig n) = some (exBig n) ∧
    searchResponse.deliver [⟨0, (exBig n).datum⟩, ⟨0, (exBig n).datum⟩] = none := by
  have h3 : n < 200000000 := by simp only [limit] at h2; omega
  refine ⟨?_, two_fail _ ?_⟩
  · rw [deliver_iff .insertionRequest, exBig_length h1 h3]
    exact h2
  · rw [exBig_scored h1 h3]
    omega

end Wire

/-- C178: and two data of 3 MB each, which a node has taken, cannot be returned together by `Search`. -/
theorem C178_answer_fails : insertionRequest.deliver (exBig 3000000) = some (exBig 3000000) ∧
    searchResponse.deliver [⟨0, (exBig 3000000).datum⟩, ⟨0, (exBig 3000000).datum⟩] = none :=
  exBig_both (by decide) (by decide)

/-- One of 3 MB can be handed on. -/
theorem C178_example : insertionRequest.deliver (forward (exBig 3000000)) = some (forward (exBig 3000000)) ∧
    scoredDatum.deliver ⟨1, (exBig 3000000).datum⟩ = some ⟨1, (exBig 3000000).datum⟩ := by
  obtain ⟨-, h1, h2⟩ := C178_handed_on_partial (exBig 3000000) (by rw [exBig_length (by decide) (by decide)]; decide)
  exact ⟨h1, h2 1⟩

end Veri
