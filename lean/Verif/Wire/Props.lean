import Verif.Wire.Lemmas
/-
C175, C176: the messages between nodes and clients.
-/
set_option autoImplicit false
namespace Veri
open Wire

namespace Wire

/-- The messages of the service (veriservice/veriservice.proto). -/
inductive Sent : (α : Type) → Msg α → Prop
  | searchRequest : Sent _ searchRequest
  | searchConfig : Sent _ searchConfig
  | searchContext : Sent _ searchContext
  | getDataRequest : Sent _ getDataRequest
  | datum : Sent _ datum
  | datumKey : Sent _ datumKey
  | datumValue : Sent _ datumValue
  | scoredDatum : Sent _ scoredDatum
  | insertDatumWithConfig : Sent _ insertDatumWithConfig
  | searchResponse : Sent _ searchResponse
  | insertionRequest : Sent _ insertionRequest
  | insertConfig : Sent _ insertConfig
  | insertionResponse : Sent _ insertionResponse
  | dataInfo : Sent _ dataInfo
  | dataConfig : Sent _ dataConfig
  | peer : Sent _ peer
  | joinRequest : Sent _ joinRequest
  | joinResponse : Sent _ joinResponse
  | addPeerRequest : Sent _ addPeerRequest
  | addPeerResponse : Sent _ addPeerResponse
  | pingRequest : Sent _ pingRequest
  | pingResponse : Sent _ pingResponse

/-- What is to be shown of the fields of a message. -/
def FieldsOk {α : Type} : List (Field α) → Prop
  | [] => True
  | f :: fs => (f.Lens ∧ f.kind.Good ∧ 1 ≤ f.num ∧ f.num ≤ 536870911) ∧ FieldsOk fs

theorem good_of {α : Type} {M : Msg α} (hn : (M.fields.map (·.num)).Nodup) (hf : FieldsOk M.fields) (hfill : ∀ a, Fills a M.fields M.empty) :
    M.Good := by
  refine Msg.good hn ?_ hfill
  have : ∀ (fs : List (Field α)), FieldsOk fs → ∀ f ∈ fs, 1 ≤ f.num ∧ f.num ≤ 536870911 ∧ f.Lens ∧ f.kind.Good := by
    intro fs
    induction fs with
    | nil => intro _ f hf; simp at hf
    | cons g fs ih =>
      intro h f hf
      rcases List.mem_cons.1 hf with rfl | hf
      · exact ⟨h.1.2.2.1, h.1.2.2.2, h.1.1, h.1.2.1⟩
      · exact ih h.2 f hf
  exact this M.fields hf

/-- Goes through the fields of a message. -/
macro "fields" : tactic => `(tactic| (
  refine good_of (by decide) ?_ ?_
  · repeat' first
      | exact True.intro
      | refine ⟨⟨⟨fun _ _ => rfl, fun _ _ _ => rfl, fun _ => rfl⟩, ?_, by decide, by decide⟩, ?_⟩
      | assumption
      | exact bool_good
      | exact uint32_good
      | exact uint64_good
      | exact int32_good
      | exact double_good
      | exact bytes_good
      | exact string_good
      | exact strings_good
      | exact floats_good
  · intro a
    repeat' first
      | rfl
      | refine ⟨rfl, ?_⟩))

theorem datumKey_good : datumKey.Good := by fields
theorem datumValue_good : datumValue.Good := by fields
theorem datum_good : datum.Good := by
  have h1 := datumKey_good.opt
  have h2 := datumValue_good.opt
  fields
theorem scoredDatum_good : scoredDatum.Good := by
  have h1 := datum_good.opt
  fields
theorem insertConfig_good : insertConfig.Good := by fields
theorem insertDatumWithConfig_good : insertDatumWithConfig.Good := by
  have h1 := datum_good.opt
  have h2 := insertConfig_good.opt
  fields
theorem insertionRequest_good : insertionRequest.Good := by
  have h1 := datum_good.opt
  have h2 := insertConfig_good.opt
  fields
theorem insertionResponse_good : insertionResponse.Good := by fields
theorem searchConfig_good : searchConfig.Good := by fields
theorem searchContext_good : searchContext.Good := by
  have h1 := datum_good.rep
  fields
theorem searchRequest_good : searchRequest.Good := by
  have h1 := searchConfig_good.opt
  have h2 := datum_good.rep
  have h3 := searchContext_good.opt
  fields
theorem searchResponse_good : searchResponse.Good := by
  have h1 := scoredDatum_good.rep
  fields
theorem getDataRequest_good : getDataRequest.Good := by fields
theorem dataInfo_good : dataInfo.Good := by fields
theorem dataConfig_good : dataConfig.Good := by fields
theorem peer_good : peer.Good := by
  have h1 := dataConfig_good.rep
  fields
theorem joinRequest_good : joinRequest.Good := by
  have h1 := peer_good.opt
  fields
theorem addPeerRequest_good : addPeerRequest.Good := by
  have h1 := peer_good.opt
  fields
theorem joinResponse_good : joinResponse.Good := by fields
theorem addPeerResponse_good : addPeerResponse.Good := by fields
theorem pingRequest_good : pingRequest.Good := by fields
theorem pingResponse_good : pingResponse.Good := by fields

theorem Sent.good {α : Type} {M : Msg α} (h : Sent α M) : M.Good := by
  cases h
  · exact searchRequest_good
  · exact searchConfig_good
  · exact searchContext_good
  · exact getDataRequest_good
  · exact datum_good
  · exact datumKey_good
  · exact datumValue_good
  · exact scoredDatum_good
  · exact insertDatumWithConfig_good
  · exact searchResponse_good
  · exact insertionRequest_good
  · exact insertConfig_good
  · exact insertionResponse_good
  · exact dataInfo_good
  · exact dataConfig_good
  · exact peer_good
  · exact joinRequest_good
  · exact joinResponse_good
  · exact addPeerRequest_good
  · exact addPeerResponse_good
  · exact pingRequest_good
  · exact pingResponse_good

end Wire

/-- C175: a message arrives as it was sent: whoever gets the bytes that a node or client writes for it reads the message itself.  (The
length of what is in memory is below `2^64`.) -/
theorem C175_arrives {α : Type} {M : Msg α} (h : Sent α M) (a : α) (hs : (M.write a).length < 2 ^ 64) : M.read (M.write a) = some a :=
  h.good.read hs

/-- C175: different messages are different on the wire. -/
theorem C175_distinct {α : Type} {M : Msg α} (h : Sent α M) (a b : α) (hs : (M.write a).length < 2 ^ 64) (he : M.write a = M.write b) :
    a = b := by
  have h1 := h.good.read hs
  have h2 := h.good.read (he ▸ hs)
  rw [he, h2] at h1
  exact (Option.some.inj h1).symm

namespace Wire

/-- An insert with a TTL, of a datum with a negative zero among its components. -/
def exInsert : InsertionRequest :=
  ⟨some ⟨300, 0⟩, some ⟨some ⟨[0x3F800000, 0x80000000], [], 0, 0, 2, 0⟩, some ⟨7, [1, 2, 3]⟩⟩, "x"⟩

end Wire

/-- Its bytes, as `protoc --encode` writes them. -/
theorem C175_example : insertionRequest.write exInsert = [0x0a, 3, 0x08, 0xac, 0x02, 0x12, 0x17, 0x0a, 12, 0x0a, 8, 0, 0, 0x80, 0x3f, 0, 0, 0, 0x80, 0x28, 2,
    0x12, 7, 0x08, 7, 0x12, 3, 1, 2, 3, 0x1a, 1, 0x78] ∧ insertionRequest.read (insertionRequest.write exInsert) = some exInsert := by
  have h : insertionRequest.write exInsert = [0x0a, 3, 0x08, 0xac, 0x02, 0x12, 0x17, 0x0a, 12, 0x0a, 8, 0, 0, 0x80, 0x3f, 0, 0, 0, 0x80, 0x28, 2,
    0x12, 7, 0x08, 7, 0x12, 3, 1, 2, 3, 0x1a, 1, 0x78] := by decide +kernel
  exact ⟨h, C175_arrives .insertionRequest exInsert (by rw [h]; decide)⟩

/-- The other types: a string, a truth value, numbers of one and of ten bytes, two strings of a list; a `double`; a negative number. -/
theorem C175_types_example :
    searchConfig.write ⟨"a", true, 0, 18446744073709551615, 300, 0, "é", 0, "", ["", "b"], 1, [], ""⟩ =
      [0x0a, 1, 0x61, 0x10, 1, 0x20, 255, 255, 255, 255, 255, 255, 255, 255, 255, 1, 0x28, 0xac, 2, 0x3a, 2, 0xc3, 0xa9, 0x52, 0, 0x52, 1, 0x62, 0x58, 1] ∧
    scoredDatum.write ⟨0x3FF0000000000001, none⟩ = [0x09, 1, 0, 0, 0, 0, 0, 0xf0, 0x3f] ∧
    insertionResponse.write (-1) = [0x08, 255, 255, 255, 255, 255, 255, 255, 255, 255, 1] ∧
    searchRequest.write ⟨none, [⟨none, none⟩, ⟨none, some ⟨1, []⟩⟩], some ⟨[], true⟩⟩ = [0x12, 0, 0x12, 4, 0x12, 2, 8, 1, 0x1a, 2, 0x10, 1] := by
  decide +kernel

/-- C176: fields that a later version of a message adds do not disturb a node: whatever they are, and wherever they stand among the
fields it knows, it reads the message that those make. -/
theorem C176_newer {α : Type} {M : Msg α} (h : Sent α M) (a : α) (ts : List Tok) (hok : ∀ t ∈ ts, t.Ok)
    (hs : (M.write a).length < 2 ^ 64) (hk : (ts.filter fun t => decide (t.num ∈ M.fields.map (·.num))) = M.toks a) :
    M.read (writeAll ts) = some a := by
  unfold Msg.read Msg.merge
  rw [readAll_writeAll hok]
  simp only [Option.bind_some]
  rw [Msg.skip, hk]
  exact (h.good a hs).2

/-- C176: the same within the messages of a request: a search whose configuration, data and context were written by a later version. -/
theorem C176_search (c : SearchConfig) (x : SearchContext) (ds : List Datum) (cb xb : Bytes) (dbs : List Bytes)
    (hc : searchConfig.read cb = some c) (hx : searchContext.read xb = some x) (hd : dbs.map datum.read = ds.map some)
    (hl : cb.length < 2 ^ 64 ∧ xb.length < 2 ^ 64 ∧ ∀ b ∈ dbs, b.length < 2 ^ 64) :
    searchRequest.read (writeAll (.bytes 1 cb :: (dbs.map (.bytes 2) ++ [.bytes 3 xb]))) = some ⟨some c, ds, some x⟩ := by
  obtain ⟨l1, l2, l3⟩ := hl
  unfold Msg.read Msg.merge
  rw [readAll_writeAll (by
    intro t ht
    simp only [List.mem_cons, List.mem_append, List.mem_map, List.not_mem_nil, or_false] at ht
    rcases ht with rfl | ⟨b, hb, rfl⟩ | rfl
    · exact ⟨by simp [Tok.num], by simp [Tok.num], l1⟩
    · exact ⟨by simp [Tok.num], by simp [Tok.num], l3 b hb⟩
    · exact ⟨by simp [Tok.num], by simp [Tok.num], l2⟩)]
  simp only [Option.bind_some, List.foldlM_cons, List.foldlM_append, List.foldlM_nil]
  have h1 : searchRequest.put searchRequest.empty (.bytes 1 cb) = some ⟨some c, [], none⟩ := by
    unfold Msg.read at hc
    simp only [Msg.put, searchRequest, List.find?, Tok.num, Field.put, Msg.opt]
    simp [hc]
  have h2 : ∀ (dbs : List Bytes) (ds acc : List Datum), dbs.map datum.read = ds.map some →
      (dbs.map (Tok.bytes 2)).foldlM searchRequest.put ⟨some c, acc, none⟩ = some ⟨some c, acc ++ ds, none⟩ := by
    intro dbs
    induction dbs with
    | nil => intro ds acc h; cases ds <;> simp_all
    | cons b dbs ih =>
      intro ds acc h
      cases ds with
      | nil => simp at h
      | cons d ds =>
        simp only [List.map_cons, List.cons.injEq] at h
        simp only [List.map_cons, List.foldlM_cons]
        have : searchRequest.put ⟨some c, acc, none⟩ (.bytes 2 b) = some ⟨some c, acc ++ [d], none⟩ := by
          simp only [Msg.put, searchRequest, List.find?, Tok.num, Field.put, Msg.rep]
          simp [h.1]
        rw [this]
        simp only [Option.bind_eq_bind, Option.bind_some]
        rw [ih ds _ h.2]
        simp
  have h3 : searchRequest.put ⟨some c, ds, none⟩ (.bytes 3 xb) = some ⟨some c, ds, some x⟩ := by
    unfold Msg.read at hx
    simp only [Msg.put, searchRequest, List.find?, Tok.num, Field.put, Msg.opt]
    simp [hx]
  rw [h1]
  simp only [Option.bind_eq_bind, Option.bind_some, h2 dbs ds [] hd, List.nil_append, h3]
  rfl

/-- An insert with two fields more, before and after. -/
theorem C176_example : insertionRequest.read (writeAll (.varint 9 5 :: insertionRequest.toks exInsert ++ [.fixed32 536870911 1])) = some exInsert := by
  refine C176_newer .insertionRequest exInsert _ ?_ (by rw [C175_example.1]; decide) (by decide +kernel)
  intro t ht
  simp only [List.cons_append, List.mem_cons, List.mem_append, List.not_mem_nil, or_false] at ht
  rcases ht with rfl | ht | rfl
  · exact ⟨by decide, by decide, by decide⟩
  · exact (Wire.insertionRequest_good exInsert (by rw [C175_example.1]; decide)).1 t ht |>.1
  · exact ⟨by decide, by decide, by decide⟩

end Veri
