/-
Exactly when some properties hold that do not hold in general: C03, C09, C28, C109, C123, C156.
-/
import Verif.Props.Codec
import Verif.Props.Clauses
import Verif.Props.Start
import Verif.Props.Handler

namespace Ratel

open Decoder Spec Sys

/-! ### C03 -/

/-- A length field of more than three bytes is refused. -/
theorem longLength_refused (lf : List UInt8) (n : Nat) (hlf : LengthField lf n) (hl : 3 < lf.length) (rest : List UInt8) (fin : Ending) (m : Nat) :
    (decodedLength (lf ++ rest) fin).1 ≠ .ok m := by
  unfold decodedLength decodeRemainingLength
  cases hlf with
  | last b h => simp at hl
  | more b0 bs n0 h0 hbs =>
    cases hbs with
    | last b h => simp at hl
    | more b1 bs n1 h1 hbs =>
      cases hbs with
      | last b h => simp at hl
      | more b2 bs n2 h2 hbs =>
        have hne : bs ≠ [] := by cases hbs <;> simp
        obtain ⟨b3, r, rfl⟩ := List.exists_cons_of_ne_nil hne
        simp only [List.cons_append]
        rw [lengthLoop_step]
        simp only [show ¬ b0.toNat < 128 by omega, ↓reduceIte, show ¬ 1 * 128 > 128 * 128 * 128 by omega]
        rw [lengthLoop_step]
        simp only [show ¬ b1.toNat < 128 by omega, ↓reduceIte, show ¬ 1 * 128 * 128 > 128 * 128 * 128 by omega]
        rw [lengthLoop_step]
        simp only [show ¬ b2.toNat < 128 by omega, ↓reduceIte, show ¬ 1 * 128 * 128 * 128 > 128 * 128 * 128 by omega]
        rw [lengthLoop_step]
        simp

/-- C03, exactly: a length field is read as what it means if and only if it has at most three bytes. -/
theorem C03_lengths_iff (lf : List UInt8) (n : Nat) (hlf : LengthField lf n) (rest : List UInt8) (fin : Ending) :
    decodedLength (lf ++ rest) fin = (.ok n, ⟨rest, fin⟩) ↔ lf.length ≤ 3 := by
  refine ⟨fun h => ?_, fun h => PReads.run (Plain.laws.readLength _ n hlf h) rest fin⟩
  refine Classical.byContradiction fun hl => longLength_refused lf n hlf (by omega) rest fin n ?_
  rw [h]

example : LengthField [0x80, 0x80, 0x80, 0x01] 2097152 := .more 0x80 _ _ (by decide) (.more 0x80 _ _ (by decide) (.more 0x80 _ _ (by decide) (.last 1 (by decide))))

/-! ### C09 -/

/-- C09, exactly: a legal CONNECT is decoded as what it means if and only if it carries no will. -/
theorem C09_will_decoded_iff (pr : Profile) (c : Connect) (hl : Legal (.connect c)) (hs : (connectRest c).length < 2097152) (rest : List UInt8)
    (fin : Ending) : (decoded pr (packet 0x10 (connectRest c) ++ rest) fin).1 = .ok (meaning (.connect c)) ↔ c.will = none := by
  refine ⟨fun h => Classical.byContradiction fun hw => ?_, fun hw => by rw [C09_will_decoded_partial pr c hl hw hs rest fin]⟩
  exact C09_will_decoded_fails pr c hw (varInt (connectRest c).length) rest fin h

/-! ### C109 -/

/-- C109, exactly: there are packets with flags the standard does not allow in the first byte that are decoded, if and only if the byte says CONNECT,
PINGREQ or DISCONNECT. -/
theorem C109_flags_iff (pr : Profile) (first : UInt8) (hf : ¬ GoodFlags first.toNat) :
    (∃ rest fin p, (decoded pr (first :: rest) fin).1 = .ok p) ↔ first.toNat / 16 ∈ [1, 12, 14] := by
  refine ⟨fun ⟨rest, fin, p, h⟩ => Classical.byContradiction fun ht => C109_flags_partial pr first rest fin hf ht p h, fun ht => ?_⟩
  have key : ∀ (b : UInt8) (l : List UInt8) (q : ControlPacket), b.toNat / 16 ∈ [1, 12, 14] → first.toNat / 16 = b.toNat / 16 →
      (decoded pr (b :: l) .eof).1 = .ok q → ∃ rest fin p, (decoded pr (first :: rest) fin).1 = .ok p := fun b l q hb hs hd =>
    ⟨l, .eof, q, by rw [C109_flags_fails pr b first l .eof hb hs]; exact hd⟩
  simp only [List.mem_cons, List.not_mem_nil, or_false] at ht
  rcases ht with ht | ht | ht
  · have hh : Legal (hello "s") := ⟨(by unfold Fits; decide +kernel : Fits "MQTT"), (by unfold Fits; decide +kernel : Fits "s"), by simp, by simp, by simp⟩
    have := C07_client_packets pr (hello "s") hh rfl (by decide +kernel) [] .eof
    exact key 0x10 _ _ (by decide) (by rw [ht]; decide) (by rw [show (0x10 : UInt8) :: _ = _ from rfl]; exact congrArg Prod.fst this)
  · exact key 0xC0 [0] .pingReq (by decide) (by rw [ht]; decide) (by
      have := C12_boundaries_fails pr [0] [] (.last 0 (by decide)) (by decide) .eof
      exact congrArg Prod.fst this)
  · exact key 0xE0 [0] .disconnect (by decide) (by rw [ht]; decide) (by
      have := C07_client_packets pr .disconnect trivial trivial (by decide) [] .eof
      rw [show packet (clientFirst .disconnect) (clientRest .disconnect) ++ [] = [0xE0, 0] by
        simp only [packet, clientFirst, clientRest]; rw [List.length_nil, varInt]; rfl] at this
      exact congrArg Prod.fst this)

/-! ### C123 -/

/-- C123, exactly: the bytes of a password reach the packet handler if and only if they are the UTF-8 of a text. -/
theorem C123_password_iff (pr : Profile) (c : Connect) (hc : Legal (.connect c)) (hw : c.will = none) (pw : List UInt8) (hp : pw.length < 65536)
    (hs : (connectRestBinary c pw).length < 2097152) (rest : List UInt8) (fin : Ending) :
    (∃ p s, (decoded pr (packet 0x10 (connectRestBinary c pw) ++ rest) fin).1 = .ok (.connect p) ∧ p.password = some s ∧ utf8 s = pw)
      ↔ ∃ s, utf8 s = pw := by
  refine ⟨fun ⟨_, s, _, _, h⟩ => ⟨s, h⟩, ?_⟩
  rintro ⟨s, rfl⟩
  obtain ⟨p, h1, h2, _⟩ := C123_text_password_partial pr c hc hw s hp hs rest fin
  exact ⟨p, s, by rw [h1], h2, rfl⟩

/-! ### C28 -/

open Classical in
/-- C28, exactly: a PUBLISH, whether or not its topic has wildcards, is sent to a connection if and only if a client reached there holds a filter that
matches the text of the topic. -/
theorem C28_delivered_iff (auth : IdentityProvider) (h : List (ClientEvent × Instant)) (m : MessagingService)
    (hm : serve auth MessagingService.new h = some m) (now : Instant) (id : ClientId) (tx : ConnId) (q : PublishPacket) :
    ∃ sends, Handler.handle auth now m (.controlPacket id (.publish q) tx) = some (m, sends) ∧ ∀ d, (d, .controlPacket (.publish q)) ∈ sends
      ↔ ∃ c f, ReachedOn auth (h.map Prod.fst) c d ∧ (c, f) ∈ held (h.map Prod.fst) ∧ Matches f q.message.topic := by
  obtain ⟨sends, h1, h2⟩ := C28_wildcard_topic_partial auth h m hm now id tx q
  obtain ⟨sends', h1', h3, h4⟩ := C32_any_topic auth h m hm now id tx q
  rw [h1] at h1'
  obtain rfl : sends = sends' := by simpa using h1'
  refine ⟨sends, h1, fun d => ⟨fun hd => h2 _ hd, fun ⟨c, f, g1, g2, g3⟩ => ?_⟩⟩
  have hpos : 0 < (sends.map Prod.fst).count d := by
    rw [h4]
    refine Nat.pos_of_ne_zero fun h0 => ?_
    rw [List.sum_eq_zero_iff_forall_eq_nat] at h0
    have := h0 _ (List.mem_map_of_mem (List.mem_filter.mpr ⟨g2, by simpa using g1⟩))
    have hw : 0 < ways f q.message.topic := ways_pos.mpr g3
    simp only at this
    omega
  obtain ⟨e, he, rfl⟩ := List.mem_map.mp (List.count_pos_iff.mp hpos)
  rw [← h3 e he]
  exact he

example : ∃ m, serve denyAll MessagingService.new [(.connected ⟨.mqtt3, "s", 60, true, none, none, none⟩ someAddr 1, 0),
    (.controlPacket "s" (.subscribe ⟨1, [⟨"+", .atMostOnce⟩]⟩) 1, 0)] = some m := ⟨_, rfl⟩

/-! ### C156 -/

open Config in
/-- C156, exactly: if there is no file of the name given on the command line, the settings are nevertheless taken from some file if and only if there is
a readable one with the extension `toml` instead. -/
theorem C156_named_iff (d : Disk) (name other dir stem ext : String) (hn : Named name dir stem ext) (ho : Named other dir stem "toml")
    (hno : ¬ Present d name) : (∃ toml v, loadFile toml d name = some v) ↔ ∃ text, d other = .text text := by
  have ht : tomlName name = other := by
    apply String.toList_inj.mp
    rw [tomlName_named hn, ho.name]
    rfl
  have hf : ∀ toml, loadFile toml d name = (if d.isFile other then some other else none).bind fun n => (d.readToString n).bind toml := fun toml => by
    simp only [loadFile, findFile, not_present hno, ht, Bool.false_eq_true, ↓reduceIte]
  simp only [hf]
  constructor
  · rintro ⟨toml, v, h⟩
    cases hd : d other with
    | text t => exact ⟨t, rfl⟩
    | _ => simp [Disk.isFile, Disk.readToString, hd] at h
  · rintro ⟨text, hd⟩
    exact ⟨fun _ => some (.scalar ""), .scalar "", by simp [Disk.isFile, Disk.readToString, hd]⟩

example (d : Disk) (h : d "/etc/ratelmq/ratelmq.conf" = .absent) :=
  C156_named_iff d _ _ _ _ _ default_named toml_named (by simp [Present, h])

end Ratel
