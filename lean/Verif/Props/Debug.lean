import Verif.Props.RoundTrip
import Verif.Proofs.Debug
import Verif.Props.Division
/-!
# C40: the debug assertions hold

The model makes every `debug_assert!` of the code a panic.  All theorems about sessions therefore say, in passing, that
no debug assertion on integers fails.  The assertions on the costs of the optimal parser (`new_cost >= 0.0`) are the only
ones that depend on more of the platform's logarithm than `Log2Ok`: they are compiled into `ieeeDebug`, and hold if the
logarithm does not decrease (`Log2Mono`).
-/

namespace Zopfli

variable {log2 : Fp → Fp} {σ : Type} {S : Sink σ} {I : σ → Prop} {log : σ → List UInt8} {patience : σ → Nat}

/-- **C40** A build with debug assertions does not panic or hang either: every session with a sink that does not fail
returns, reports success, and adds to the sink a stream that decodes to the data.  If every write is shorter than `lim`,
the logarithm must not decrease on the integers below `2048 * lim`. -/
theorem C40_debug_build (hlog : Log2Ok log2) {lim : Nat} (hge : 2 ^ 21 ≤ lim) (hle : lim ≤ 2 ^ 47) (hmono : Log2Mono log2 (2 ^ 11 * lim))
    (hS : Reliable S I log patience) (o : Options) (bt : BlockType) (fmt : Format) (calls : List Call) (ending : Ending)
    (hfit : ∀ w ∈ writesOf calls, w.length < lim) (s : σ) (hs : I s) :
    ∃ s' stream, session ⟨ieeeDebug log2, S, o, bt⟩ fmt calls ending s = some (.ok (), s') ∧ log s' = log s ++ stream ∧
      decode fmt stream = some (writesOf calls).flatten := by
  obtain ⟨stream, body, blocks, h1, h2, h3⟩ := streamOf_exists (ieeeDebugLaws hlog hge hle hmono) o bt fmt (writesOf calls) hfit
  obtain ⟨s', g1, g2, g3⟩ := session_reliable ⟨ieeeDebug log2, S, o, bt⟩ hS fmt calls ending hs h1
  exact ⟨s', stream, g1, g2, h1.decode (ieeeDebugLaws hlog hge hle hmono) hfit⟩

/-- The function `compress` in a build with debug assertions, with a reader that does not lend its buffer (see
`C40_debug_compress_lent` for those that do): it writes in pieces of at most 1,000,000 bytes, so the
logarithm must not decrease on the integers below `2^32`. -/
theorem C40_debug_compress (hlog : Log2Ok log2) (hmono : Log2Mono log2 (2 ^ 32)) (hS : Reliable S I log patience) {ρ : Type} {R : Reader ρ} {J : ρ → Prop}
    {data : ρ → List UInt8} {res : Except ErrKind Unit} {patience' : ρ → Nat} (hR : Delivers R J data res patience') (o : Options) (fmt : Format)
    (r : ρ) (hr : J r) (s : σ) (hs : I s) :
    ∃ s' stream, compress (ieeeDebug log2) S R o fmt r s = some (res, s') ∧ log s' = log s ++ stream ∧ decode fmt stream = some (data r) := by
  have hmono' : Log2Mono log2 (2 ^ 11 * 2 ^ 21) := hmono
  obtain ⟨s', W, stream, h1, h2, h3, h4, h5, h6⟩ := compress_reliable (ieeeDebugLaws hlog (by norm_num) (by norm_num) hmono') S hS R hR o fmt hr hs
  refine ⟨s', stream, h1, h2, ?_⟩
  rw [h4.decode (ieeeDebugLaws hlog (by norm_num) (by norm_num) hmono') h5, h6]

example : ∃ s' stream, session ⟨ieeeDebug floorLog2, stutterSink, Options.default, .dynamic⟩ .gzip [.write [1, 2, 3], .flush, .write [], .write [1, 2, 3]] .drop ([9], 1) =
    some (.ok (), s') ∧ s'.1 = [9] ++ stream ∧ decode .gzip stream = some [1, 2, 3, 1, 2, 3] :=
  C40_debug_build floorLog2_ok (lim := 2 ^ 47) (by norm_num) (by norm_num) (fun m n h1 h2 h3 => floorLog2_mono m n h1 h2 (by omega))
    stutterSink_reliable Options.default .dynamic .gzip _ .drop
    (by intro w hw; simp [writesOf] at hw; rcases hw with rfl | rfl | rfl <;> decide) _ trivial

/-- The assertions are really there: a negative cost is a panic. -/
example : tryLiteral (ieeeDebug floorLog2) (fun _ _ => some (.fin (-1))) #[7] 0 0 #[.fin 0, .inf false] #[0, 0] = none := by
  have h : (ieeeDebug floorLog2).costOk ((ieeeDebug floorLog2).add (.fin (-1)) ((ieeeDebug floorLog2).toF64 (.fin 0))) = false := by
    show Fp.le (.fin 0) (Fp.round64 (-1 + 0)) = false
    have : Fp.round64 ((-1 : ℤ) : ℚ) = .fin (-1) := by exact_mod_cast Fp.round64_int (z := -1) (by norm_num)
    rw [show (-1 + 0 : ℚ) = ((-1 : ℤ) : ℚ) by norm_num, this]
    simp [Fp.le]
  unfold tryLiteral
  show Option.bind (guardR ((ieeeDebug floorLog2).costOk ((ieeeDebug floorLog2).add (.fin (-1)) ((ieeeDebug floorLog2).toF64 (.fin 0))))) _ = none
  rw [h]
  rfl

/-- Bits of an item under the given code lengths: the codes and the extra bits (RFC 1951, 3.2.5). -/
def bitsOf (ll d : Array Nat) : LitLen → Nat
  | .literal b => ll.getD b 0
  | .lengthDist len dist =>
    ll.getD ((getLengthSymbol len).getD 0) 0 + (getLengthExtraBits len).getD 0 + d.getD (getDistSymbol dist) 0 + getDistExtraBits dist

theorem bitsOf_eq {ll d : Array Nat} {x : LitLen} (hr : x.InRange) : itemCost ll d x = bitsOf ll d x := by
  cases x with
  | literal b =>
    have hb : b < 256 := hr
    show ll.getD b 0 + (if b < 257 then 0 else (getLengthSymbolExtraBits b).getD 0) + 0 = ll.getD b 0
    rw [if_pos (by omega)]
    omega
  | lengthDist len dist =>
    obtain ⟨r1, r2, r3, r4⟩ := hr
    obtain ⟨s, eb, v, l1, l2, l3, l4, l5, l6, l7, l8, l9, l10, l11⟩ := length_spec r1 r2
    obtain ⟨d1, d2, d3, d4, d5, d6, d7⟩ := dist_spec r3 r4
    show llCost ll ((getLengthSymbol len).getD 0) + dCost d (getDistSymbol dist) = bitsOf ll d (.lengthDist len dist)
    unfold llCost dCost
    simp only [bitsOf]
    rw [l1, l2, Option.getD_some, if_neg (by omega), l6, d2, Option.getD_some, Option.getD_some]
    omega

/-- **C40** The sizes that the encoder adds up in 32 bits do not overflow for items that describe less than `2^28 - 1`
bytes (256 MiB), whatever the code lengths (at most 15): the result is the true sum. -/
theorem C40_sizes_fit (data : Array UInt8) (xs : List LitLen) (start stop : Nat) (h : Parses data start xs stop) (hsz : stop - start < 2 ^ 28 - 1)
    (ll d : Array Nat) (hl : ll.size = 288) (hd : d.size = 32) (hl15 : ∀ i, ll.getD i 0 ≤ 15) (hd15 : ∀ i, d.getD i 0 ≤ 15) :
    ∃ s, storeOf (placed start xs) = some s ∧
      blockSymbolSizeSmall ll d s 0 xs.length = some ((xs.map (bitsOf ll d)).sum + ll.getD 256 0) ∧
      blockSymbolSize ll d s 0 xs.length = some ((xs.map (bitsOf ll d)).sum + ll.getD 256 0) := by
  obtain ⟨s, e, hs, hx⟩ := storeOf_placed h
  have hsize : s.size = xs.length := by rw [Lz77Store.size_eq, hx]
  have hb : xs.map (itemCost ll d) = xs.map (bitsOf ll d) := by
    refine List.map_congr_left fun x hmem => bitsOf_eq (hs.inv.range x ?_)
    rw [hx]
    exact hmem
  have hlt := dataCost_lt hl15 hd15 xs start stop h hsz
  have hsp : (s.litlens.toList.take xs.length).drop 0 = xs := by rw [hx, List.drop_zero, List.take_length]
  have e1 := blockSymbolSizeSmall_spec hl hd hs.inv (lstart := 0) (lend := xs.length) (Nat.zero_le _) (by omega)
  have e2 := blockSymbolSize_spec hl hd hs.inv (lstart := 0) (lend := xs.length) (Nat.zero_le _) (by omega)
  rw [hsp, Nat.mod_eq_of_lt hlt] at e1 e2
  rw [dataCost, hb] at e1 e2
  exact ⟨s, e, e1, e2⟩

example : ∃ s, storeOf (placed 0 [.literal 7, .lengthDist 3 1]) = some s ∧
    blockSymbolSizeSmall (Array.replicate 288 15) (Array.replicate 32 15) s 0 2 = some 60 ∧
    blockSymbolSize (Array.replicate 288 15) (Array.replicate 32 15) s 0 2 = some 60 := by
  have hp : Parses #[7, 7, 7, 7] 0 [.literal 7, .lengthDist 3 1] 4 :=
    ⟨⟨7, rfl, rfl⟩, ⟨by decide, by decide, by decide, by decide, by decide, by decide, fun k hk => by
      have : k = 0 ∨ k = 1 ∨ k = 2 := by omega
      rcases this with rfl | rfl | rfl <;> rfl⟩, rfl⟩
  have hg : ∀ n i : Nat, (Array.replicate n 15).getD i 0 ≤ 15 := by
    intro n i
    rw [Array.getD_eq_getD_getElem?, Array.getElem?_replicate]
    split <;> simp
  obtain ⟨s, h1, h2, h3⟩ := C40_sizes_fit _ _ 0 4 hp (by norm_num) (Array.replicate 288 15) (Array.replicate 32 15) (by simp) (by simp) (hg 288) (hg 32)
  have e : ([.literal 7, .lengthDist 3 1].map (bitsOf (Array.replicate 288 15) (Array.replicate 32 15))).sum + (Array.replicate 288 15).getD 256 0 = 60 := by
    decide +kernel
  rw [e] at h2 h3
  exact ⟨s, h1, h2, h3⟩

end Zopfli
