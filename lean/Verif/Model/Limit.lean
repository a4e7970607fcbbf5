import Verif.Model.Codec

/-! # Limits of readers -/

namespace Verif

/-- `src/value/decode.rs:115-122`: `strict_deserialize_type` with the limit of the reader made by
`StreamReader::cursor::<LIMIT>` (external, line 116; there, `LIMIT` is `2 ^ 32 - 1`): reading beyond the limit fails as reading
beyond the end does. The position compared with the length of the data (line 118) is the number of bytes read. -/
def deserializeLimited (E : Env) (fuel limit : Nat) (id : SemId) (bs : Bytes) : Out DErr Val := do
  let (v, rest) ← read E fuel id (bs.take limit)
  if (bs.take limit).length - rest.length ≠ bs.length then .err .notEntirelyConsumed else pure v

end Verif
