import Verif.Model.Basic
/-! # Model of `src/tree.rs` -/

namespace Zopfli

/-- src/tree.rs:4-34 `lengths_to_symbols`.  `u32` arithmetic is exact: with at most 288 lengths of at most 15 bits
no intermediate exceeds `288 * 2^15`. -/
def lengthsToSymbols (lengths : Array Nat) (maxBits : Nat) : Option (Array Nat) := do
  let n := lengths.size
  -- 1) count the codes of each length (lines 13-16)
  let blCount ← forRange 0 n (Array.replicate (maxBits + 1) 0) fun i bl => do
    let length ← lengths[i]?
    guardR (length ≤ maxBits)
    amod bl length (· + 1)
  -- 2) smallest code of each length (lines 18-23)
  let blCount ← aset blCount 0 0
  let (_, nextCode) ← forRange 1 (maxBits + 1) (0, Array.replicate (maxBits + 1) 0) fun bits (code, nextCode) => do
    let code := (code + (← blCount[bits - 1]?)) <<< 1
    return (code, ← aset nextCode bits code)
  -- 3) consecutive codes (lines 26-32)
  let (symbols, _) ← forRange 0 n (Array.replicate n 0, nextCode) fun i (symbols, nextCode) => do
    let len ← lengths[i]?
    if len ≠ 0 then do
      let code ← nextCode[len]?
      return (← aset symbols i code, ← aset nextCode len (code + 1))
    else return (symbols, nextCode)
  return symbols

end Zopfli
