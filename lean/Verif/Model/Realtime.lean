/-! # Expiry argument of the client commands -/
namespace Verif.Item

/-- `realtime`, memcached.c 190-225, with ENABLE_STICKY_ITEM.  `exptime` is the signed argument,
`started` is `process_started`, `now` is `current_time`; the final cast to 32 bits of
`exptime + current_time` is kept. -/
def realtime (started : Int) (now : Nat) (exptime : Int) : Nat :=
  if exptime = 0 then 0
  else if exptime < 0 then
    if exptime = -1 then 2 ^ 32 - 1 else 1
  else if exptime > 60 * 60 * 24 * 30 then
    if exptime ≤ started then 1
    else
      let expiration := exptime - started
      if expiration > 0x7FFFFFFF then 0x7FFFFFFF else expiration.toNat
  else (exptime.toNat + now) % 2 ^ 32

end Verif.Item
