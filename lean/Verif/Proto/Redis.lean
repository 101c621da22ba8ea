import Verif.Proto.Frame
import Verif.Tools.Text
/-
Model of collector/pkg/component/analyzer/network/protocol/redis.
-/
namespace Kindling.Proto.Redis
open Kindling Kindling.Agg Kindling.Proto

/-- redis_command.go:3-292 `redisCommands`, the keys as bytes. -/
def commands : List Bytes :=
  [
[65, 67, 76, 32, 76, 79, 65, 68],
   [65, 67, 76, 32, 83, 65, 86, 69],
   [65, 67, 76, 32, 76, 73, 83, 84],
   [65, 67, 76, 32, 85, 83, 69, 82, 83],
   [65, 67, 76, 32, 71, 69, 84, 85, 83, 69, 82],
   [65, 67, 76, 32, 83, 69, 84, 85, 83, 69, 82],
   [65, 67, 76, 32, 68, 69, 76, 85, 83, 69, 82],
   [65, 67, 76, 32, 67, 65, 84],
   [65, 67, 76, 32, 71, 69, 78, 80, 65, 83, 83],
   [65, 67, 76, 32, 87, 72, 79, 65, 77, 73],
   [65, 67, 76, 32, 76, 79, 71],
   [65, 67, 76, 32, 72, 69, 76, 80],
   [65, 80, 80, 69, 78, 68],
   [65, 85, 84, 72],
   [66, 71, 82, 69, 87, 82, 73, 84, 69, 65, 79, 70],
   [66, 71, 83, 65, 86, 69],
   [66, 73, 84, 67, 79, 85, 78, 84],
   [66, 73, 84, 70, 73, 69, 76, 68],
   [66, 73, 84, 79, 80],
   [66, 73, 84, 80, 79, 83],
   [66, 76, 80, 79, 80],
   [66, 82, 80, 79, 80],
   [66, 82, 80, 79, 80, 76, 80, 85, 83, 72],
   [66, 76, 77, 79, 86, 69],
   [66, 90, 80, 79, 80, 77, 73, 78],
   [66, 90, 80, 79, 80, 77, 65, 88],
   [67, 76, 73, 69, 78, 84, 32, 67, 65, 67, 72, 73, 78, 71],
   [67, 76, 73, 69, 78, 84, 32, 73, 68],
   [67, 76, 73, 69, 78, 84, 32, 73, 78, 70, 79],
   [67, 76, 73, 69, 78, 84, 32, 75, 73, 76, 76],
   [67, 76, 73, 69, 78, 84, 32, 76, 73, 83, 84],
   [67, 76, 73, 69, 78, 84, 32, 71, 69, 84, 78, 65, 77, 69],
   [67, 76, 73, 69, 78, 84, 32, 71, 69, 84, 82, 69, 68, 73, 82],
   [67, 76, 73, 69, 78, 84, 32, 85, 78, 80, 65, 85, 83, 69],
   [67, 76, 73, 69, 78, 84, 32, 80, 65, 85, 83, 69],
   [67, 76, 73, 69, 78, 84, 32, 82, 69, 80, 76, 89],
   [67, 76, 73, 69, 78, 84, 32, 83, 69, 84, 78, 65, 77, 69],
   [67, 76, 73, 69, 78, 84, 32, 84, 82, 65, 67, 75, 73, 78, 71],
   [67, 76, 73, 69, 78, 84, 32, 84, 82, 65, 67, 75, 73, 78, 71, 73, 78, 70, 79],
   [67, 76, 73, 69, 78, 84, 32, 85, 78, 66, 76, 79, 67, 75],
   [67, 76, 85, 83, 84, 69, 82, 32, 65, 68, 68, 83, 76, 79, 84, 83],
   [67, 76, 85, 83, 84, 69, 82, 32, 66, 85, 77, 80, 69, 80, 79, 67, 72],
   [67, 76, 85, 83, 84, 69, 82, 32, 67, 79, 85, 78, 84, 45, 70, 65, 73, 76, 85, 82, 69, 45, 82, 69, 80, 79, 82, 84, 83],
   [67, 76, 85, 83, 84, 69, 82, 32, 67, 79, 85, 78, 84, 75, 69, 89, 83, 73, 78, 83, 76, 79, 84],
   [67, 76, 85, 83, 84, 69, 82, 32, 68, 69, 76, 83, 76, 79, 84, 83],
   [67, 76, 85, 83, 84, 69, 82, 32, 70, 65, 73, 76, 79, 86, 69, 82],
   [67, 76, 85, 83, 84, 69, 82, 32, 70, 76, 85, 83, 72, 83, 76, 79, 84, 83],
   [67, 76, 85, 83, 84, 69, 82, 32, 70, 79, 82, 71, 69, 84],
   [67, 76, 85, 83, 84, 69, 82, 32, 71, 69, 84, 75, 69, 89, 83, 73, 78, 83, 76, 79, 84],
   [67, 76, 85, 83, 84, 69, 82, 32, 73, 78, 70, 79],
   [67, 76, 85, 83, 84, 69, 82, 32, 75, 69, 89, 83, 76, 79, 84],
   [67, 76, 85, 83, 84, 69, 82, 32, 77, 69, 69, 84],
   [67, 76, 85, 83, 84, 69, 82, 32, 77, 89, 73, 68],
   [67, 76, 85, 83, 84, 69, 82, 32, 78, 79, 68, 69, 83],
   [67, 76, 85, 83, 84, 69, 82, 32, 82, 69, 80, 76, 73, 67, 65, 84, 69],
   [67, 76, 85, 83, 84, 69, 82, 32, 82, 69, 83, 69, 84],
   [67, 76, 85, 83, 84, 69, 82, 32, 83, 65, 86, 69, 67, 79, 78, 70, 73, 71],
   [67, 76, 85, 83, 84, 69, 82, 32, 83, 69, 84, 45, 67, 79, 78, 70, 73, 71, 45, 69, 80, 79, 67, 72],
   [67, 76, 85, 83, 84, 69, 82, 32, 83, 69, 84, 83, 76, 79, 84],
   [67, 76, 85, 83, 84, 69, 82, 32, 83, 76, 65, 86, 69, 83],
   [67, 76, 85, 83, 84, 69, 82, 32, 82, 69, 80, 76, 73, 67, 65, 83],
   [67, 76, 85, 83, 84, 69, 82, 32, 83, 76, 79, 84, 83],
   [67, 79, 77, 77, 65, 78, 68],
   [67, 79, 77, 77, 65, 78, 68, 32, 67, 79, 85, 78, 84],
   [67, 79, 77, 77, 65, 78, 68, 32, 71, 69, 84, 75, 69, 89, 83],
   [67, 79, 77, 77, 65, 78, 68, 32, 73, 78, 70, 79],
   [67, 79, 78, 70, 73, 71, 32, 71, 69, 84],
   [67, 79, 78, 70, 73, 71, 32, 82, 69, 87, 82, 73, 84, 69],
   [67, 79, 78, 70, 73, 71, 32, 83, 69, 84],
   [67, 79, 78, 70, 73, 71, 32, 82, 69, 83, 69, 84, 83, 84, 65, 84],
   [67, 79, 80, 89],
   [68, 66, 83, 73, 90, 69],
   [68, 69, 66, 85, 71, 32, 79, 66, 74, 69, 67, 84],
   [68, 69, 66, 85, 71, 32, 83, 69, 71, 70, 65, 85, 76, 84],
   [68, 69, 67, 82],
   [68, 69, 67, 82, 66, 89],
   [68, 69, 76],
   [68, 73, 83, 67, 65, 82, 68],
   [68, 85, 77, 80],
   [69, 67, 72, 79],
   [69, 86, 65, 76],
   [69, 86, 65, 76, 83, 72, 65],
   [69, 88, 69, 67],
   [69, 88, 73, 83, 84, 83],
   [69, 88, 80, 73, 82, 69],
   [69, 88, 80, 73, 82, 69, 65, 84],
   [70, 65, 73, 76, 79, 86, 69, 82],
   [70, 76, 85, 83, 72, 65, 76, 76],
   [70, 76, 85, 83, 72, 68, 66],
   [71, 69, 79, 65, 68, 68],
   [71, 69, 79, 72, 65, 83, 72],
   [71, 69, 79, 80, 79, 83],
   [71, 69, 79, 68, 73, 83, 84],
   [71, 69, 79, 82, 65, 68, 73, 85, 83],
   [71, 69, 79, 82, 65, 68, 73, 85, 83, 66, 89, 77, 69, 77, 66, 69, 82],
   [71, 69, 79, 83, 69, 65, 82, 67, 72],
   [71, 69, 79, 83, 69, 65, 82, 67, 72, 83, 84, 79, 82, 69],
   [71, 69, 84],
   [71, 69, 84, 66, 73, 84],
   [71, 69, 84, 68, 69, 76],
   [71, 69, 84, 69, 88],
   [71, 69, 84, 82, 65, 78, 71, 69],
   [71, 69, 84, 83, 69, 84],
   [72, 68, 69, 76],
   [72, 69, 76, 76, 79],
   [72, 69, 88, 73, 83, 84, 83],
   [72, 71, 69, 84],
   [72, 71, 69, 84, 65, 76, 76],
   [72, 73, 78, 67, 82, 66, 89],
   [72, 73, 78, 67, 82, 66, 89, 70, 76, 79, 65, 84],
   [72, 75, 69, 89, 83],
   [72, 76, 69, 78],
   [72, 77, 71, 69, 84],
   [72, 77, 83, 69, 84],
   [72, 83, 69, 84],
   [72, 83, 69, 84, 78, 88],
   [72, 82, 65, 78, 68, 70, 73, 69, 76, 68],
   [72, 83, 84, 82, 76, 69, 78],
   [72, 86, 65, 76, 83],
   [73, 78, 67, 82],
   [73, 78, 67, 82, 66, 89],
   [73, 78, 67, 82, 66, 89, 70, 76, 79, 65, 84],
   [73, 78, 70, 79],
   [76, 79, 76, 87, 85, 84],
   [75, 69, 89, 83],
   [76, 65, 83, 84, 83, 65, 86, 69],
   [76, 73, 78, 68, 69, 88],
   [76, 73, 78, 83, 69, 82, 84],
   [76, 76, 69, 78],
   [76, 80, 79, 80],
   [76, 80, 79, 83],
   [76, 80, 85, 83, 72],
   [76, 80, 85, 83, 72, 88],
   [76, 82, 65, 78, 71, 69],
   [76, 82, 69, 77],
   [76, 83, 69, 84],
   [76, 84, 82, 73, 77],
   [77, 69, 77, 79, 82, 89, 32, 68, 79, 67, 84, 79, 82],
   [77, 69, 77, 79, 82, 89, 32, 72, 69, 76, 80],
   [77, 69, 77, 79, 82, 89, 32, 77, 65, 76, 76, 79, 67, 45, 83, 84, 65, 84, 83],
   [77, 69, 77, 79, 82, 89, 32, 80, 85, 82, 71, 69],
   [77, 69, 77, 79, 82, 89, 32, 83, 84, 65, 84, 83],
   [77, 69, 77, 79, 82, 89, 32, 85, 83, 65, 71, 69],
   [77, 71, 69, 84],
   [77, 73, 71, 82, 65, 84, 69],
   [77, 79, 68, 85, 76, 69, 32, 76, 73, 83, 84],
   [77, 79, 68, 85, 76, 69, 32, 76, 79, 65, 68],
   [77, 79, 68, 85, 76, 69, 32, 85, 78, 76, 79, 65, 68],
   [77, 79, 78, 73, 84, 79, 82],
   [77, 79, 86, 69],
   [77, 83, 69, 84],
   [77, 83, 69, 84, 78, 88],
   [77, 85, 76, 84, 73],
   [79, 66, 74, 69, 67, 84],
   [80, 69, 82, 83, 73, 83, 84],
   [80, 69, 88, 80, 73, 82, 69],
   [80, 69, 88, 80, 73, 82, 69, 65, 84],
   [80, 70, 65, 68, 68],
   [80, 70, 67, 79, 85, 78, 84],
   [80, 70, 77, 69, 82, 71, 69],
   [80, 73, 78, 71],
   [80, 83, 69, 84, 69, 88],
   [80, 83, 85, 66, 83, 67, 82, 73, 66, 69],
   [80, 85, 66, 83, 85, 66],
   [80, 84, 84, 76],
   [80, 85, 66, 76, 73, 83, 72],
   [80, 85, 78, 83, 85, 66, 83, 67, 82, 73, 66, 69],
   [81, 85, 73, 84],
   [82, 65, 78, 68, 79, 77, 75, 69, 89],
   [82, 69, 65, 68, 79, 78, 76, 89],
   [82, 69, 65, 68, 87, 82, 73, 84, 69],
   [82, 69, 78, 65, 77, 69],
   [82, 69, 78, 65, 77, 69, 78, 88],
   [82, 69, 83, 69, 84],
   [82, 69, 83, 84, 79, 82, 69],
   [82, 79, 76, 69],
   [82, 80, 79, 80],
   [82, 80, 79, 80, 76, 80, 85, 83, 72],
   [76, 77, 79, 86, 69],
   [82, 80, 85, 83, 72],
   [82, 80, 85, 83, 72, 88],
   [83, 65, 68, 68],
   [83, 65, 86, 69],
   [83, 67, 65, 82, 68],
   [83, 67, 82, 73, 80, 84, 32, 68, 69, 66, 85, 71],
   [83, 67, 82, 73, 80, 84, 32, 69, 88, 73, 83, 84, 83],
   [83, 67, 82, 73, 80, 84, 32, 70, 76, 85, 83, 72],
   [83, 67, 82, 73, 80, 84, 32, 75, 73, 76, 76],
   [83, 67, 82, 73, 80, 84, 32, 76, 79, 65, 68],
   [83, 68, 73, 70, 70],
   [83, 68, 73, 70, 70, 83, 84, 79, 82, 69],
   [83, 69, 76, 69, 67, 84],
   [83, 69, 84],
   [83, 69, 84, 66, 73, 84],
   [83, 69, 84, 69, 88],
   [83, 69, 84, 78, 88],
   [83, 69, 84, 82, 65, 78, 71, 69],
   [83, 72, 85, 84, 68, 79, 87, 78],
   [83, 73, 78, 84, 69, 82],
   [83, 73, 78, 84, 69, 82, 83, 84, 79, 82, 69],
   [83, 73, 83, 77, 69, 77, 66, 69, 82],
   [83, 77, 73, 83, 77, 69, 77, 66, 69, 82],
   [83, 76, 65, 86, 69, 79, 70],
   [82, 69, 80, 76, 73, 67, 65, 79, 70],
   [83, 76, 79, 87, 76, 79, 71],
   [83, 77, 69, 77, 66, 69, 82, 83],
   [83, 77, 79, 86, 69],
   [83, 79, 82, 84],
   [83, 80, 79, 80],
   [83, 82, 65, 78, 68, 77, 69, 77, 66, 69, 82],
   [83, 82, 69, 77],
   [83, 84, 82, 65, 76, 71, 79],
   [83, 84, 82, 76, 69, 78],
   [83, 85, 66, 83, 67, 82, 73, 66, 69],
   [83, 85, 78, 73, 79, 78],
   [83, 85, 78, 73, 79, 78, 83, 84, 79, 82, 69],
   [83, 87, 65, 80, 68, 66],
   [83, 89, 78, 67],
   [80, 83, 89, 78, 67],
   [84, 73, 77, 69],
   [84, 79, 85, 67, 72],
   [84, 84, 76],
   [84, 89, 80, 69],
   [85, 78, 83, 85, 66, 83, 67, 82, 73, 66, 69],
   [85, 78, 76, 73, 78, 75],
   [85, 78, 87, 65, 84, 67, 72],
   [87, 65, 73, 84],
   [87, 65, 84, 67, 72],
   [90, 65, 68, 68],
   [90, 67, 65, 82, 68],
   [90, 67, 79, 85, 78, 84],
   [90, 68, 73, 70, 70],
   [90, 68, 73, 70, 70, 83, 84, 79, 82, 69],
   [90, 73, 78, 67, 82, 66, 89],
   [90, 73, 78, 84, 69, 82],
   [90, 73, 78, 84, 69, 82, 83, 84, 79, 82, 69],
   [90, 76, 69, 88, 67, 79, 85, 78, 84],
   [90, 80, 79, 80, 77, 65, 88],
   [90, 80, 79, 80, 77, 73, 78],
   [90, 82, 65, 78, 68, 77, 69, 77, 66, 69, 82],
   [90, 82, 65, 78, 71, 69, 83, 84, 79, 82, 69],
   [90, 82, 65, 78, 71, 69],
   [90, 82, 65, 78, 71, 69, 66, 89, 76, 69, 88],
   [90, 82, 69, 86, 82, 65, 78, 71, 69, 66, 89, 76, 69, 88],
   [90, 82, 65, 78, 71, 69, 66, 89, 83, 67, 79, 82, 69],
   [90, 82, 65, 78, 75],
   [90, 82, 69, 77],
   [90, 82, 69, 77, 82, 65, 78, 71, 69, 66, 89, 76, 69, 88],
   [90, 82, 69, 77, 82, 65, 78, 71, 69, 66, 89, 82, 65, 78, 75],
   [90, 82, 69, 77, 82, 65, 78, 71, 69, 66, 89, 83, 67, 79, 82, 69],
   [90, 82, 69, 86, 82, 65, 78, 71, 69],
   [90, 82, 69, 86, 82, 65, 78, 71, 69, 66, 89, 83, 67, 79, 82, 69],
   [90, 82, 69, 86, 82, 65, 78, 75],
   [90, 83, 67, 79, 82, 69],
   [90, 85, 78, 73, 79, 78],
   [90, 77, 83, 67, 79, 82, 69],
   [90, 85, 78, 73, 79, 78, 83, 84, 79, 82, 69],
   [83, 67, 65, 78],
   [83, 83, 67, 65, 78],
   [72, 83, 67, 65, 78],
   [90, 83, 67, 65, 78],
   [88, 73, 78, 70, 79],
   [88, 65, 68, 68],
   [88, 84, 82, 73, 77],
   [88, 68, 69, 76],
   [88, 82, 65, 78, 71, 69],
   [88, 82, 69, 86, 82, 65, 78, 71, 69],
   [88, 76, 69, 78],
   [88, 82, 69, 65, 68],
   [88, 71, 82, 79, 85, 80],
   [88, 82, 69, 65, 68, 71, 82, 79, 85, 80],
   [88, 65, 67, 75],
   [88, 67, 76, 65, 73, 77],
   [88, 65, 85, 84, 79, 67, 76, 65, 73, 77],
   [88, 80, 69, 78, 68, 73, 78, 71],
   [76, 65, 84, 69, 78, 67, 89, 32, 68, 79, 67, 84, 79, 82],
   [76, 65, 84, 69, 78, 67, 89, 32, 71, 82, 65, 80, 72],
   [76, 65, 84, 69, 78, 67, 89, 32, 72, 73, 83, 84, 79, 82, 89],
   [76, 65, 84, 69, 78, 67, 89, 32, 76, 65, 84, 69, 83, 84],
   [76, 65, 84, 69, 78, 67, 89, 32, 82, 69, 83, 69, 84],
   [76, 65, 84, 69, 78, 67, 89, 32, 72, 69, 76, 80],
   [83, 69, 78, 84, 73, 78, 69, 76],
   [82, 69, 80, 76, 67, 79, 78, 70, 32, 65, 67, 75]]

/-- redis_command.go:294-305: `maxCommandLen` after `init`. -/
def maxCommandLen : Nat := commands.foldl (fun n c => max n c.length) 0

/-- redis_command.go:316-318: one byte in upper case. -/
def upper (b : UInt8) : UInt8 := if 97 ≤ b ∧ b ≤ 122 then b - 97 + 65 else b

/-- redis_command.go:307-324 `IsRedisCommand` (the buffer of 50 bytes is longer than every command, so it is not
overrun). -/
def isCommand (key : Bytes) : Bool :=
  if key.length > maxCommandLen then false else commands.contains (key.map upper)

/-- collector/pkg/model/constlabels/protocols.go:4, 26, 27 and const.go:17-18. -/
def kContentKey : Bytes := bs "content_key"
def kCommand : Bytes := bs "redis_command"
def kErrMsg : Bytes := bs "redis_error_msg"
def kIsError : Bytes := bs "is_error"
def kErrorType : Bytes := bs "error_type"

/-- The fast-fail functions of redis_array.go:14-18, redis_bulk_string.go:13-17, redis_integer.go:12-16,
redis_simple_string.go:10-14 and redis_error.go:11-15: the next byte is not `c`. -/
def startsNot (c : UInt8) : FastFail := fun m => do
  let b ← m.cur
  pure (b != c)

/-- redis_request.go:12-19 and redis_response.go:14-23: the next byte is none of `cs`. -/
def startsNone (cs : List UInt8) : FastFail := fun m => do
  let b ← m.cur
  pure (!cs.contains b)

/-- The frame has been read up to `o`: `message.Offset = offset; return true, message.IsComplete()`. -/
def finish (m : Msg) (o : Int) : Res ((Bool × Bool) × Msg) :=
  let m' := { m with offset := o.toNat }
  .ok ((true, m'.isComplete), m')

/-- `return false, true`. -/
def failed (m : Msg) : Res ((Bool × Bool) × Msg) := .ok ((false, true), m)

/-- redis_array.go:20-34 `parseRedisArray` and redis_integer.go:18-32 `parseRedisInteger` (same text). -/
def parseNumber : ParseFn := fun m =>
  match readUntilCRLF m.data (m.offset + 1) with
  | .panic => .panic
  | .err => failed m
  | .ok (o, s) => if (Dec.parseInt 64 s).2 then finish m o else failed m

/-- redis_bulk_string.go:19-59 `parseRedisBulkString`. -/
def parseBulk : ParseFn := fun m =>
  match readUntilCRLF m.data (m.offset + 1) with
  | .panic => .panic
  | .err => failed m
  | .ok (o, s) =>
    if (Dec.parseInt 64 s).2 then
      if (Dec.parseInt 64 s).1 = -1 then finish m o
      else match readUntilCRLF m.data o.toNat with
        | .panic => .panic
        | .err => failed m
        | .ok (o', v) =>
          if (v.length : Int) ≠ (Dec.parseInt 64 s).1 then failed m
          else if !m.has v && isCommand v then
            finish ((m.add kContentKey (.str (Text.formatUtf8 v))).add kCommand (.str (Text.formatUtf8 v))) o'
          else finish m o'
    else failed m

/-- redis_simple_string.go:16-26 `parseRedisSimpleString`. -/
def parseSimple : ParseFn := fun m =>
  match readUntilCRLF m.data (m.offset + 1) with
  | .panic => .panic
  | .err => failed m
  | .ok (o, _) => finish m o

/-- redis_error.go:17-32 `parseRedisError`; `ProtocolError` is 3 (constlabels/const.go:3-8). -/
def parseError : ParseFn := fun m =>
  match readUntilCRLF m.data (m.offset + 1) with
  | .panic => .panic
  | .err => failed m
  | .ok (o, s) =>
    if s.length > 0 && !m.has kErrMsg then
      finish (((m.add kErrMsg (.str (Text.formatUtf8 s))).add kIsError (.bool true)).add kErrorType (.int 3)) o
    else finish m o

/-- redis_request.go:21-25 and redis_response.go:25-29. -/
def parseRoot : ParseFn := fun m => .ok ((true, false), m)

/-- redis_parser.go:8-11. -/
def requestTree : Tree :=
  { fastFail := startsNone [42, 36, 58], parse := parseRoot,
    children := [⟨startsNot 42, parseNumber⟩, ⟨startsNot 36, parseBulk⟩, ⟨startsNot 58, parseNumber⟩] }

/-- redis_parser.go:13-18. -/
def responseTree : Tree :=
  { fastFail := startsNone [43, 45, 42, 36, 58], parse := parseRoot,
    children := [⟨startsNot 42, parseNumber⟩, ⟨startsNot 36, parseBulk⟩, ⟨startsNot 58, parseNumber⟩,
                 ⟨startsNot 43, parseSimple⟩, ⟨startsNot 45, parseError⟩] }

/-- protocol_parser.go:415-417 for redis (multi-frame, redis_parser.go:21), with one round per payload byte:
`terminates` in RedisProps shows that the loop always ends within them. -/
def parseRequest (d : Bytes) : Option (Res (Bool × Msg)) := requestTree.frames (d.length + 1) ⟨d, 0, []⟩
/-- protocol_parser.go:419-421; the response is parsed with the attributes of the request. -/
def parseResponse (d : Bytes) (a : Attrs) : Option (Res (Bool × Msg)) := responseTree.frames (d.length + 1) ⟨d, 0, a⟩

end Kindling.Proto.Redis
