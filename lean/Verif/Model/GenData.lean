import Verif.Model.Basic
/-!
# The text of the files in /repo/redis that the generator reads and wrote

Written by tools/gen_data.py from /repo, byte for byte; do not edit.  Used only by Props/Gen.lean.
-/
namespace Godis.GenData

/-- lines, each ended by a line feed -/
def unlines (ls : List Bytes) : Bytes := ls.flatMap (fun l => l ++ [10])

/-- the lines of redis/hash_table.go:1-295 -/
def src_hash_table_lines : List Bytes :=
  [b! "package redis",
    b! "",
    b! "import (",
    b! "\t\"strconv\"",
    b! "",
    b! "\t\"github.com/yusank/godis/datastruct\"",
    b! "\t\"github.com/yusank/godis/protocol\"",
    b! "\t\"github.com/yusank/godis/util\"",
    b! ")",
    b! "",
    b! "//go:generate gen_redis_cmd \"./hash_table.go\"",
    b! "",
    b! "// hDel .",
    b! "func hDel(c *Command) (*protocol.Response, error) {",
    b! "\tif len(c.Values) < 2 {",
    b! "\t\treturn nil, ErrCommandArgsNotEnough",
    b! "\t}",
    b! "",
    b! "\tcnt, err := datastruct.HDel(c.Values[0], c.Values[1])",
    b! "\tif err != nil && err != datastruct.ErrNil {",
    b! "\t\treturn nil, err",
    b! "\t}",
    b! "",
    b! "\treturn protocol.NewResponseWithInteger(int64(cnt)), nil",
    b! "}",
    b! "",
    b! "// hExists .",
    b! "func hExists(c *Command) (*protocol.Response, error) {",
    b! "\tif len(c.Values) < 2 {",
    b! "\t\treturn nil, ErrCommandArgsNotEnough",
    b! "\t}",
    b! "",
    b! "\tcnt, err := datastruct.HExists(c.Values[0], c.Values[1])",
    b! "\tif err != nil && err != datastruct.ErrNil {",
    b! "\t\treturn nil, err",
    b! "\t}",
    b! "",
    b! "\treturn protocol.NewResponseWithInteger(int64(cnt)), nil",
    b! "",
    b! "}"]
  ++ [b! "",
    b! "// hGet .",
    b! "func hGet(c *Command) (*protocol.Response, error) {",
    b! "\tif len(c.Values) < 2 {",
    b! "\t\treturn nil, ErrCommandArgsNotEnough",
    b! "\t}",
    b! "",
    b! "\tv, err := datastruct.HGet(c.Values[0], c.Values[1])",
    b! "\tif err == datastruct.ErrNil {",
    b! "\t\treturn protocol.NewResponseWithNilBulk(), nil",
    b! "\t}",
    b! "",
    b! "\tif err != nil {",
    b! "\t\treturn nil, err",
    b! "\t}",
    b! "\tvar res string",
    b! "\tswitch vv := v.(type) {",
    b! "\tcase string:",
    b! "\t\tres = vv",
    b! "\tcase int64:",
    b! "\t\tres = strconv.FormatInt(vv, 10)",
    b! "\tcase float64:",
    b! "\t\tres = strconv.FormatFloat(vv, 'g', -1, 64)",
    b! "\t}",
    b! "",
    b! "\treturn protocol.NewResponseWithBulkString(res), nil",
    b! "}",
    b! "",
    b! "// hGetAll .",
    b! "func hGetAll(c *Command) (*protocol.Response, error) {",
    b! "\tif len(c.Values) < 1 {",
    b! "\t\treturn nil, ErrCommandArgsNotEnough",
    b! "\t}",
    b! "",
    b! "\tm, err := datastruct.HGetAll(c.Values[0])",
    b! "\tif err == datastruct.ErrNil || len(m) == 0 {",
    b! "\t\treturn protocol.NewResponseWithNilBulk(), nil",
    b! "\t}",
    b! "",
    b! "\tif err != nil {"]
  ++ [b! "\t\treturn nil, err",
    b! "\t}",
    b! "",
    b! "\tvar (",
    b! "\t\tvalues = make([]interface{}, len(m)*2)",
    b! "\t\ti      int",
    b! "\t)",
    b! "",
    b! "\tfor k, v := range m {",
    b! "\t\tvalues[i] = k",
    b! "\t\tvalues[i+1] = v",
    b! "\t\ti += 2",
    b! "\t}",
    b! "",
    b! "\treturn protocol.NewResponse(true).AppendBulkInterfaces(values...), nil",
    b! "}",
    b! "",
    b! "// hIncrBy .",
    b! "func hIncrBy(c *Command) (*protocol.Response, error) {",
    b! "\tif len(c.Values) < 3 {",
    b! "\t\treturn nil, ErrCommandArgsNotEnough",
    b! "\t}",
    b! "",
    b! "\tvar (",
    b! "\t\tkey     = c.Values[0]",
    b! "\t\tfield   = c.Values[1]",
    b! "\t\tincrStr = c.Values[2]",
    b! "\t)",
    b! "",
    b! "\ti64, err := strconv.ParseInt(incrStr, 10, 64)",
    b! "\tif err != nil {",
    b! "\t\treturn nil, datastruct.ErrNotInteger",
    b! "\t}",
    b! "",
    b! "\tres, err := datastruct.HIncrBy(key, field, i64)",
    b! "\tif err != nil {",
    b! "\t\treturn nil, err",
    b! "\t}",
    b! "",
    b! "\treturn protocol.NewResponseWithInteger(res), nil"]
  ++ [b! "}",
    b! "",
    b! "// hIncrByFloat .",
    b! "func hIncrByFloat(c *Command) (*protocol.Response, error) {",
    b! "\tif len(c.Values) < 3 {",
    b! "\t\treturn nil, ErrCommandArgsNotEnough",
    b! "\t}",
    b! "",
    b! "\tvar (",
    b! "\t\tkey     = c.Values[0]",
    b! "\t\tfield   = c.Values[1]",
    b! "\t\tincrStr = c.Values[2]",
    b! "\t)",
    b! "",
    b! "\tf64, err := strconv.ParseFloat(incrStr, 64)",
    b! "\tif err != nil {",
    b! "\t\treturn nil, datastruct.ErrNotInteger",
    b! "\t}",
    b! "",
    b! "\tres, err := datastruct.HIncrByFloat(key, field, f64)",
    b! "\tif err != nil {",
    b! "\t\treturn nil, err",
    b! "\t}",
    b! "",
    b! "\treturn protocol.NewResponseWithBulkString(strconv.FormatFloat(res, 'g', -1, 64)), nil",
    b! "}",
    b! "",
    b! "// hKeys .",
    b! "func hKeys(c *Command) (*protocol.Response, error) {",
    b! "\tif len(c.Values) < 1 {",
    b! "\t\treturn nil, ErrCommandArgsNotEnough",
    b! "\t}",
    b! "",
    b! "\tvalues, err := datastruct.HKeys(c.Values[0])",
    b! "\tif err == datastruct.ErrNil {",
    b! "\t\treturn protocol.NewResponseWithEmptyArray(), nil",
    b! "\t}",
    b! "",
    b! "\tif err != nil {",
    b! "\t\treturn nil, err"]
  ++ [b! "\t}",
    b! "",
    b! "\treturn protocol.NewResponse(true).AppendBulkStrings(values...), nil",
    b! "}",
    b! "",
    b! "// hLen .",
    b! "func hLen(c *Command) (*protocol.Response, error) {",
    b! "\tif len(c.Values) < 1 {",
    b! "\t\treturn nil, ErrCommandArgsNotEnough",
    b! "\t}",
    b! "",
    b! "\tl, err := datastruct.HLen(c.Values[0])",
    b! "\tif err == datastruct.ErrNil {",
    b! "\t\treturn protocol.NewResponseWithInteger(0), nil",
    b! "\t}",
    b! "",
    b! "\tif err != nil {",
    b! "\t\treturn nil, err",
    b! "\t}",
    b! "",
    b! "\treturn protocol.NewResponseWithInteger(int64(l)), nil",
    b! "}",
    b! "",
    b! "// hMGet .",
    b! "func hMGet(c *Command) (*protocol.Response, error) {",
    b! "\tif len(c.Values) < 2 {",
    b! "\t\treturn nil, ErrCommandArgsNotEnough",
    b! "\t}",
    b! "",
    b! "\tvalues, err := datastruct.HMGet(c.Values[0], c.Values[1:]...)",
    b! "\tif err == datastruct.ErrNil {",
    b! "\t\tvalues = make([]interface{}, len(c.Values[1:]))",
    b! "\t\terr = nil",
    b! "\t}",
    b! "",
    b! "\tif err != nil {",
    b! "\t\treturn nil, err",
    b! "\t}",
    b! "",
    b! "\treturn protocol.NewResponse(true).AppendBulkInterfaces(values...), nil"]
  ++ [b! "}",
    b! "",
    b! "// hMSet .",
    b! "func hMSet(c *Command) (*protocol.Response, error) {",
    b! "\tif len(c.Values) < 3 {",
    b! "\t\treturn nil, ErrCommandArgsNotEnough",
    b! "\t}",
    b! "",
    b! "\tvar (",
    b! "\t\tkey = c.Values[0]",
    b! "\t\tkvs = make([]*datastruct.KV, 0)",
    b! "\t)",
    b! "",
    b! "\tfor i := 1; i < len(c.Values)-1; i += 2 {",
    b! "\t\tkvs = append(kvs, &datastruct.KV{",
    b! "\t\t\tKey:   c.Values[i],",
    b! "\t\t\tValue: util.ConvertToValidValue(c.Values[i+1]),",
    b! "\t\t})",
    b! "\t}",
    b! "",
    b! "\t_, err := datastruct.HSet(key, datastruct.HSetInNone, kvs...)",
    b! "\tif err != nil {",
    b! "\t\treturn nil, err",
    b! "\t}",
    b! "",
    b! "\treturn protocol.NewResponseWithSimpleString(RespOK), nil",
    b! "}",
    b! "",
    b! "// hSet .",
    b! "func hSet(c *Command) (*protocol.Response, error) {",
    b! "\tif len(c.Values) < 3 {",
    b! "\t\treturn nil, ErrCommandArgsNotEnough",
    b! "\t}",
    b! "",
    b! "\tvar (",
    b! "\t\tkey = c.Values[0]",
    b! "\t\tkvs = make([]*datastruct.KV, 0)",
    b! "\t)",
    b! "",
    b! "\tfor i := 1; i < len(c.Values)-1; i += 2 {"]
  ++ [b! "\t\tkvs = append(kvs, &datastruct.KV{",
    b! "\t\t\tKey:   c.Values[i],",
    b! "\t\t\tValue: util.ConvertToValidValue(c.Values[i+1]),",
    b! "\t\t})",
    b! "\t}",
    b! "",
    b! "\tcnt, err := datastruct.HSet(key, datastruct.HSetInNone, kvs...)",
    b! "\tif err != nil {",
    b! "\t\treturn nil, err",
    b! "\t}",
    b! "",
    b! "\treturn protocol.NewResponseWithInteger(int64(cnt)), nil",
    b! "}",
    b! "",
    b! "// hSetNx .",
    b! "func hSetNx(c *Command) (*protocol.Response, error) {",
    b! "\tif len(c.Values) < 3 {",
    b! "\t\treturn nil, ErrCommandArgsNotEnough",
    b! "\t}",
    b! "",
    b! "\tvar (",
    b! "\t\tkey = c.Values[0]",
    b! "\t\tkvs = make([]*datastruct.KV, 1)",
    b! "\t)",
    b! "",
    b! "\tkvs[0] = &datastruct.KV{",
    b! "\t\tKey:   c.Values[1],",
    b! "\t\tValue: util.ConvertToValidValue(c.Values[2]),",
    b! "\t}",
    b! "",
    b! "\tcnt, err := datastruct.HSet(key, datastruct.HSetInNx, kvs...)",
    b! "\tif err != nil {",
    b! "\t\treturn nil, err",
    b! "\t}",
    b! "",
    b! "\treturn protocol.NewResponseWithInteger(int64(cnt)), nil",
    b! "}",
    b! "",
    b! "// hVals .",
    b! "func hVals(c *Command) (*protocol.Response, error) {"]
  ++ [b! "\tif len(c.Values) < 1 {",
    b! "\t\treturn nil, ErrCommandArgsNotEnough",
    b! "\t}",
    b! "",
    b! "\tvalues, err := datastruct.HVals(c.Values[0])",
    b! "\tif err == datastruct.ErrNil {",
    b! "\t\treturn protocol.NewResponseWithEmptyArray(), nil",
    b! "\t}",
    b! "",
    b! "\tif err != nil {",
    b! "\t\treturn nil, err",
    b! "\t}",
    b! "",
    b! "\treturn protocol.NewResponse(true).AppendBulkStrings(values...), nil",
    b! "}"]

/-- redis/hash_table.go -/
def src_hash_table : Bytes := unlines src_hash_table_lines

/-- the lines of redis/hash_table.cmd.go:1-19 -/
def cmd_hash_table_lines : List Bytes :=
  [b! "// Code generated by gen_redis_cmd. DO NOT EDIT.",
    b! "",
    b! "package redis",
    b! "",
    b! "func init() {",
    b! "\timplementedCommands[\"hdel\"] = hDel",
    b! "\timplementedCommands[\"hexists\"] = hExists",
    b! "\timplementedCommands[\"hget\"] = hGet",
    b! "\timplementedCommands[\"hgetall\"] = hGetAll",
    b! "\timplementedCommands[\"hincrby\"] = hIncrBy",
    b! "\timplementedCommands[\"hincrbyfloat\"] = hIncrByFloat",
    b! "\timplementedCommands[\"hkeys\"] = hKeys",
    b! "\timplementedCommands[\"hlen\"] = hLen",
    b! "\timplementedCommands[\"hmget\"] = hMGet",
    b! "\timplementedCommands[\"hmset\"] = hMSet",
    b! "\timplementedCommands[\"hset\"] = hSet",
    b! "\timplementedCommands[\"hsetnx\"] = hSetNx",
    b! "\timplementedCommands[\"hvals\"] = hVals",
    b! "}"]

/-- redis/hash_table.cmd.go -/
def cmd_hash_table : Bytes := unlines cmd_hash_table_lines

/-- the lines of redis/keys.go:1-67 -/
def src_keys_lines : List Bytes :=
  [b! "package redis",
    b! "",
    b! "import (",
    b! "\t\"github.com/yusank/godis/datastruct\"",
    b! "\t\"github.com/yusank/godis/protocol\"",
    b! ")",
    b! "",
    b! "// global commands like `keys`, `exists`",
    b! "",
    b! "//go:generate gen_redis_cmd \"./keys.go\"",
    b! "",
    b! "func keys(c *Command) (*protocol.Response, error) {",
    b! "\tif len(c.Values) < 1 {",
    b! "\t\treturn nil, ErrCommandArgsNotEnough",
    b! "\t}",
    b! "",
    b! "\tvalues := datastruct.Keys(c.Values[0])",
    b! "\treturn protocol.NewResponse(true).AppendBulkStrings(values...), nil",
    b! "}",
    b! "",
    b! "func exists(c *Command) (*protocol.Response, error) {",
    b! "\tif len(c.Values) < 1 {",
    b! "\t\treturn nil, ErrCommandArgsNotEnough",
    b! "\t}",
    b! "",
    b! "\tfound := datastruct.Exists(c.Values[0])",
    b! "\trsp := protocol.NewResponseWithInteger(0)",
    b! "\tif found {",
    b! "\t\trsp = protocol.NewResponseWithInteger(1)",
    b! "\t}",
    b! "",
    b! "\treturn rsp, nil",
    b! "}",
    b! "",
    b! "// del .",
    b! "func del(c *Command) (*protocol.Response, error) {",
    b! "\tif len(c.Values) < 1 {",
    b! "\t\treturn nil, ErrCommandArgsNotEnough",
    b! "\t}",
    b! ""]
  ++ [b! "\tcnt := datastruct.Del(c.Values[0])",
    b! "\treturn protocol.NewResponseWithInteger(int64(cnt)), nil",
    b! "}",
    b! "",
    b! "// type",
    b! "func keyType(c *Command) (*protocol.Response, error) {",
    b! "\tif len(c.Values) < 1 {",
    b! "\t\treturn nil, ErrCommandArgsNotEnough",
    b! "\t}",
    b! "",
    b! "\tkt, ok := datastruct.Type(c.Values[0])",
    b! "\tif !ok {",
    b! "\t\trsp := protocol.NewResponseWithSimpleString(RespNone)",
    b! "\t\treturn rsp, nil",
    b! "\t}",
    b! "",
    b! "\trsp := protocol.NewResponseWithSimpleString(string(kt))",
    b! "\treturn rsp, nil",
    b! "}",
    b! "",
    b! "func ping(c *Command) (*protocol.Response, error) {",
    b! "\treturn protocol.NewResponseWithSimpleString(RespPong), nil",
    b! "}",
    b! "",
    b! "func command(c *Command) (*protocol.Response, error) {",
    b! "\treturn protocol.NewResponseWithSimpleString(RespCommand), nil",
    b! "}"]

/-- redis/keys.go -/
def src_keys : Bytes := unlines src_keys_lines

/-- the lines of redis/keys.cmd.go:1-12 -/
def cmd_keys_lines : List Bytes :=
  [b! "// Code generated by gen_redis_cmd. DO NOT EDIT.",
    b! "",
    b! "package redis",
    b! "",
    b! "func init() {",
    b! "\timplementedCommands[\"keys\"] = keys",
    b! "\timplementedCommands[\"exists\"] = exists",
    b! "\timplementedCommands[\"del\"] = del",
    b! "\timplementedCommands[\"type\"] = keyType",
    b! "\timplementedCommands[\"ping\"] = ping",
    b! "\timplementedCommands[\"command\"] = command",
    b! "}"]

/-- redis/keys.cmd.go -/
def cmd_keys : Bytes := unlines cmd_keys_lines

/-- the lines of redis/list.go:1-222 -/
def src_list_lines : List Bytes :=
  [b! "package redis",
    b! "",
    b! "import (",
    b! "\t\"strconv\"",
    b! "\t\"strings\"",
    b! "",
    b! "\t\"github.com/yusank/godis/datastruct\"",
    b! "\t\"github.com/yusank/godis/protocol\"",
    b! ")",
    b! "",
    b! "//go:generate gen_redis_cmd \"./list.go\"",
    b! "",
    b! "// lPush .",
    b! "func lPush(c *Command) (*protocol.Response, error) {",
    b! "\tif len(c.Values) < 2 {",
    b! "\t\treturn nil, ErrCommandArgsNotEnough",
    b! "\t}",
    b! "",
    b! "\tln, err := datastruct.LPush(c.Values[0], c.Values[1:]...)",
    b! "\tif err != nil {",
    b! "\t\treturn nil, err",
    b! "\t}",
    b! "",
    b! "\treturn protocol.NewResponseWithInteger(int64(ln)), nil",
    b! "}",
    b! "",
    b! "// lPop .",
    b! "func lPop(c *Command) (*protocol.Response, error) {",
    b! "\tif len(c.Values) < 1 {",
    b! "\t\treturn nil, ErrCommandArgsNotEnough",
    b! "\t}",
    b! "",
    b! "\tvar count = 1",
    b! "\tif len(c.Values) > 1 {",
    b! "\t\tcnt, err := strconv.Atoi(c.Values[1])",
    b! "\t\tif err != nil || cnt <= 0 {",
    b! "\t\t\treturn nil, ErrValueOutOfRange",
    b! "\t\t}",
    b! "",
    b! "\t\tcount = cnt"]
  ++ [b! "\t}",
    b! "",
    b! "\tvalues, err := datastruct.LPop(c.Values[0], count)",
    b! "\tif err == datastruct.ErrNil {",
    b! "\t\treturn protocol.NewResponseWithNilBulk(), nil",
    b! "\t}",
    b! "",
    b! "\tif err != nil {",
    b! "\t\treturn nil, err",
    b! "\t}",
    b! "",
    b! "\treturn protocol.NewResponse(true).AppendBulkStrings(values...), nil",
    b! "}",
    b! "",
    b! "// rPush .",
    b! "func rPush(c *Command) (*protocol.Response, error) {",
    b! "\tif len(c.Values) < 2 {",
    b! "\t\treturn nil, ErrCommandArgsNotEnough",
    b! "\t}",
    b! "",
    b! "\tln, err := datastruct.RPush(c.Values[0], c.Values[1:]...)",
    b! "\tif err != nil {",
    b! "\t\treturn nil, err",
    b! "\t}",
    b! "",
    b! "\treturn protocol.NewResponseWithInteger(int64(ln)), nil",
    b! "}",
    b! "",
    b! "// rPop .",
    b! "func rPop(c *Command) (*protocol.Response, error) {",
    b! "\tif len(c.Values) < 1 {",
    b! "\t\treturn nil, ErrCommandArgsNotEnough",
    b! "\t}",
    b! "",
    b! "\tvar count = 1",
    b! "\tif len(c.Values) > 1 {",
    b! "\t\tcnt, err := strconv.Atoi(c.Values[1])",
    b! "\t\tif err != nil || cnt <= 0 {",
    b! "\t\t\treturn nil, ErrValueOutOfRange",
    b! "\t\t}"]
  ++ [b! "",
    b! "\t\tcount = cnt",
    b! "\t}",
    b! "",
    b! "\tvalues, err := datastruct.RPop(c.Values[0], count)",
    b! "\tif err == datastruct.ErrNil {",
    b! "\t\treturn protocol.NewResponseWithNilBulk(), nil",
    b! "\t}",
    b! "",
    b! "\tif err != nil {",
    b! "\t\treturn nil, err",
    b! "\t}",
    b! "",
    b! "\treturn protocol.NewResponse(true).AppendBulkStrings(values...), nil",
    b! "}",
    b! "",
    b! "// lLen .",
    b! "func lLen(c *Command) (*protocol.Response, error) {",
    b! "\tif len(c.Values) < 1 {",
    b! "\t\treturn nil, ErrCommandArgsNotEnough",
    b! "\t}",
    b! "",
    b! "\tln, err := datastruct.LLen(c.Values[0])",
    b! "\tif err != nil && err != datastruct.ErrNil {",
    b! "\t\treturn nil, err",
    b! "\t}",
    b! "",
    b! "\treturn protocol.NewResponseWithInteger(int64(ln)), nil",
    b! "}",
    b! "",
    b! "// lRange .",
    b! "func lRange(c *Command) (*protocol.Response, error) {",
    b! "\tif len(c.Values) < 3 {",
    b! "\t\treturn nil, ErrCommandArgsNotEnough",
    b! "\t}",
    b! "",
    b! "\tstart, err := strconv.Atoi(c.Values[1])",
    b! "\tif err != nil {",
    b! "\t\treturn nil, ErrValueOutOfRange",
    b! "\t}"]
  ++ [b! "",
    b! "\tstop, err := strconv.Atoi(c.Values[2])",
    b! "\tif err != nil {",
    b! "\t\treturn nil, ErrValueOutOfRange",
    b! "\t}",
    b! "",
    b! "\tvalues, err := datastruct.LRange(c.Values[0], start, stop)",
    b! "\tif err != nil && err != datastruct.ErrNil {",
    b! "\t\treturn nil, err",
    b! "\t}",
    b! "",
    b! "\tif len(values) == 0 {",
    b! "\t\treturn protocol.NewResponseWithEmptyArray(), nil",
    b! "\t}",
    b! "",
    b! "\treturn protocol.NewResponse(true).AppendBulkStrings(values...), nil",
    b! "}",
    b! "",
    b! "// lRem .",
    b! "func lRem(c *Command) (*protocol.Response, error) {",
    b! "\tif len(c.Values) < 3 {",
    b! "\t\treturn nil, ErrCommandArgsNotEnough",
    b! "\t}",
    b! "",
    b! "\tcount, err := strconv.Atoi(c.Values[1])",
    b! "\tif err != nil {",
    b! "\t\treturn nil, ErrValueOutOfRange",
    b! "\t}",
    b! "",
    b! "\tn, err := datastruct.LRem(c.Values[0], count, c.Values[2])",
    b! "\tif err != nil && err != datastruct.ErrNil {",
    b! "\t\treturn nil, err",
    b! "\t}",
    b! "",
    b! "\treturn protocol.NewResponseWithInteger(int64(n)), nil",
    b! "}",
    b! "",
    b! "// lIndex .",
    b! "func lIndex(c *Command) (*protocol.Response, error) {",
    b! "\tif len(c.Values) < 2 {"]
  ++ [b! "\t\treturn nil, ErrCommandArgsNotEnough",
    b! "\t}",
    b! "",
    b! "\tindex, err := strconv.Atoi(c.Values[1])",
    b! "\tif err != nil {",
    b! "\t\treturn nil, ErrValueOutOfRange",
    b! "\t}",
    b! "",
    b! "\tval, err := datastruct.LIndex(c.Values[1], index)",
    b! "\tif err == datastruct.ErrNil {",
    b! "\t\treturn protocol.NewResponseWithNilBulk(), nil",
    b! "\t}",
    b! "",
    b! "\tif err != nil {",
    b! "\t\treturn nil, err",
    b! "\t}",
    b! "",
    b! "\treturn protocol.NewResponseWithBulkString(val), nil",
    b! "}",
    b! "",
    b! "// lSet .",
    b! "func lSet(c *Command) (*protocol.Response, error) {",
    b! "\tif len(c.Values) < 3 {",
    b! "\t\treturn nil, ErrCommandArgsNotEnough",
    b! "\t}",
    b! "",
    b! "\tindex, err := strconv.Atoi(c.Values[1])",
    b! "\tif err != nil {",
    b! "\t\treturn nil, ErrValueOutOfRange",
    b! "\t}",
    b! "",
    b! "\terr = datastruct.LSet(c.Values[0], index, c.Values[2])",
    b! "\tif err != nil {",
    b! "\t\treturn nil, err",
    b! "\t}",
    b! "",
    b! "\treturn protocol.NewResponseWithSimpleString(RespOK), nil",
    b! "}",
    b! "",
    b! "// lInsert ."]
  ++ [b! "func lInsert(c *Command) (*protocol.Response, error) {",
    b! "\tif len(c.Values) < 4 {",
    b! "\t\treturn nil, ErrCommandArgsNotEnough",
    b! "\t}",
    b! "",
    b! "\tvar flag int",
    b! "\tswitch strings.ToLower(c.Values[1]) {",
    b! "\tcase \"after\":",
    b! "\t\tflag = 1",
    b! "\tcase \"before\":",
    b! "\t\tflag = -1",
    b! "\tdefault:",
    b! "\t\treturn nil, ErrCommandArgsNotEnough",
    b! "\t}",
    b! "",
    b! "\tn, err := datastruct.LInsert(c.Values[0], c.Values[2], c.Values[3], flag)",
    b! "\tif err != nil {",
    b! "\t\treturn nil, err",
    b! "\t}",
    b! "",
    b! "\treturn protocol.NewResponseWithInteger(int64(n)), nil",
    b! "}"]

/-- redis/list.go -/
def src_list : Bytes := unlines src_list_lines

/-- the lines of redis/list.cmd.go:1-16 -/
def cmd_list_lines : List Bytes :=
  [b! "// Code generated by gen_redis_cmd. DO NOT EDIT.",
    b! "",
    b! "package redis",
    b! "",
    b! "func init() {",
    b! "\timplementedCommands[\"lpush\"] = lPush",
    b! "\timplementedCommands[\"lpop\"] = lPop",
    b! "\timplementedCommands[\"rpush\"] = rPush",
    b! "\timplementedCommands[\"rpop\"] = rPop",
    b! "\timplementedCommands[\"llen\"] = lLen",
    b! "\timplementedCommands[\"lrange\"] = lRange",
    b! "\timplementedCommands[\"lrem\"] = lRem",
    b! "\timplementedCommands[\"lindex\"] = lIndex",
    b! "\timplementedCommands[\"lset\"] = lSet",
    b! "\timplementedCommands[\"linsert\"] = lInsert",
    b! "}"]

/-- redis/list.cmd.go -/
def cmd_list : Bytes := unlines cmd_list_lines

/-- the lines of redis/set.go:1-251 -/
def src_set_lines : List Bytes :=
  [b! "package redis",
    b! "",
    b! "import (",
    b! "\t\"strconv\"",
    b! "",
    b! "\t\"github.com/yusank/godis/datastruct\"",
    b! "\t\"github.com/yusank/godis/protocol\"",
    b! ")",
    b! "",
    b! "//go:generate gen_redis_cmd \"./set.go\"",
    b! "",
    b! "// sAdd .",
    b! "func sAdd(c *Command) (*protocol.Response, error) {",
    b! "\tif len(c.Values) < 2 {",
    b! "\t\treturn nil, ErrCommandArgsNotEnough",
    b! "\t}",
    b! "",
    b! "\tcnt, err := datastruct.SAdd(c.Values[0], c.Values[1:]...)",
    b! "\tif err != nil {",
    b! "\t\treturn nil, err",
    b! "\t}",
    b! "",
    b! "\treturn protocol.NewResponseWithInteger(int64(cnt)), nil",
    b! "",
    b! "}",
    b! "",
    b! "// sCard .",
    b! "func sCard(c *Command) (*protocol.Response, error) {",
    b! "\tif len(c.Values) < 1 {",
    b! "\t\treturn nil, ErrCommandArgsNotEnough",
    b! "\t}",
    b! "",
    b! "\tcard, err := datastruct.SCard(c.Values[0])",
    b! "\tif err != nil && err != datastruct.ErrNil {",
    b! "\t\treturn nil, err",
    b! "\t}",
    b! "",
    b! "\treturn protocol.NewResponseWithInteger(int64(card)), nil",
    b! "}",
    b! ""]
  ++ [b! "// sDiff .",
    b! "func sDiff(c *Command) (*protocol.Response, error) {",
    b! "\tif len(c.Values) < 1 {",
    b! "\t\treturn nil, ErrCommandArgsNotEnough",
    b! "\t}",
    b! "",
    b! "\tif len(c.Values) == 1 {",
    b! "\t\treturn protocol.NewResponseWithEmptyArray(), nil",
    b! "\t}",
    b! "",
    b! "\tdiffs, err := datastruct.SDiff(c.Values...)",
    b! "\tif err == datastruct.ErrNil {",
    b! "\t\treturn protocol.NewResponseWithEmptyArray(), nil",
    b! "\t}",
    b! "",
    b! "\tif err != nil {",
    b! "\t\treturn nil, err",
    b! "\t}",
    b! "",
    b! "\treturn protocol.NewResponse(true).AppendBulkStrings(diffs...), nil",
    b! "}",
    b! "",
    b! "// sDiffStore .",
    b! "func sDiffStore(c *Command) (*protocol.Response, error) {",
    b! "\tif len(c.Values) < 2 {",
    b! "\t\treturn nil, ErrCommandArgsNotEnough",
    b! "\t}",
    b! "",
    b! "\tif len(c.Values) == 1 {",
    b! "\t\treturn protocol.NewResponseWithEmptyArray(), nil",
    b! "\t}",
    b! "",
    b! "\tcnt, err := datastruct.SDiffStore(c.Values[0], c.Values[1:]...)",
    b! "\tif err != nil {",
    b! "\t\treturn nil, err",
    b! "\t}",
    b! "",
    b! "\treturn protocol.NewResponseWithInteger(int64(cnt)), nil",
    b! "}",
    b! ""]
  ++ [b! "// sInter .",
    b! "func sInter(c *Command) (*protocol.Response, error) {",
    b! "\tif len(c.Values) < 1 {",
    b! "\t\treturn nil, ErrCommandArgsNotEnough",
    b! "\t}",
    b! "",
    b! "\tif len(c.Values) == 1 {",
    b! "\t\treturn protocol.NewResponseWithEmptyArray(), nil",
    b! "\t}",
    b! "",
    b! "\tinter, err := datastruct.SInter(c.Values...)",
    b! "\tif err == datastruct.ErrNil {",
    b! "\t\treturn protocol.NewResponseWithEmptyArray(), nil",
    b! "\t}",
    b! "",
    b! "\tif err != nil {",
    b! "\t\treturn nil, err",
    b! "\t}",
    b! "",
    b! "\treturn protocol.NewResponse(true).AppendBulkStrings(inter...), nil",
    b! "}",
    b! "",
    b! "// sInterStore .",
    b! "func sInterStore(c *Command) (*protocol.Response, error) {",
    b! "\tif len(c.Values) < 2 {",
    b! "\t\treturn nil, ErrCommandArgsNotEnough",
    b! "\t}",
    b! "",
    b! "\tif len(c.Values) == 1 {",
    b! "\t\treturn protocol.NewResponseWithEmptyArray(), nil",
    b! "\t}",
    b! "",
    b! "\tcnt, err := datastruct.SInterStore(c.Values[0], c.Values[1:]...)",
    b! "\tif err != nil {",
    b! "\t\treturn nil, err",
    b! "\t}",
    b! "",
    b! "\treturn protocol.NewResponseWithInteger(int64(cnt)), nil",
    b! "}",
    b! ""]
  ++ [b! "// sUnion .",
    b! "func sUnion(c *Command) (*protocol.Response, error) {",
    b! "\tif len(c.Values) < 1 {",
    b! "\t\treturn nil, ErrCommandArgsNotEnough",
    b! "\t}",
    b! "",
    b! "\tif len(c.Values) == 1 {",
    b! "\t\treturn protocol.NewResponseWithEmptyArray(), nil",
    b! "\t}",
    b! "",
    b! "\tunions, err := datastruct.SUnion(c.Values...)",
    b! "\tif err == datastruct.ErrNil {",
    b! "\t\treturn protocol.NewResponseWithEmptyArray(), nil",
    b! "\t}",
    b! "",
    b! "\tif err != nil {",
    b! "\t\treturn nil, err",
    b! "\t}",
    b! "",
    b! "\treturn protocol.NewResponse(true).AppendBulkStrings(unions...), nil",
    b! "}",
    b! "",
    b! "// sUnionStore .",
    b! "func sUnionStore(c *Command) (*protocol.Response, error) {",
    b! "\tif len(c.Values) < 2 {",
    b! "\t\treturn nil, ErrCommandArgsNotEnough",
    b! "\t}",
    b! "",
    b! "\tif len(c.Values) == 1 {",
    b! "\t\treturn protocol.NewResponseWithEmptyArray(), nil",
    b! "\t}",
    b! "",
    b! "\tcnt, err := datastruct.SUnionStore(c.Values[0], c.Values[1:]...)",
    b! "\tif err != nil {",
    b! "\t\treturn nil, err",
    b! "\t}",
    b! "",
    b! "\treturn protocol.NewResponseWithInteger(int64(cnt)), nil",
    b! "}",
    b! ""]
  ++ [b! "// sIsMember .",
    b! "func sIsMember(c *Command) (*protocol.Response, error) {",
    b! "\tif len(c.Values) < 2 {",
    b! "\t\treturn nil, ErrCommandArgsNotEnough",
    b! "\t}",
    b! "",
    b! "\tres, err := datastruct.SIsMember(c.Values[0], c.Values[1])",
    b! "\tif err != nil && err != datastruct.ErrNil {",
    b! "\t\treturn nil, err",
    b! "\t}",
    b! "",
    b! "\treturn protocol.NewResponseWithInteger(int64(res)), nil",
    b! "}",
    b! "",
    b! "// sMembers .",
    b! "func sMembers(c *Command) (*protocol.Response, error) {",
    b! "\tif len(c.Values) < 1 {",
    b! "\t\treturn nil, ErrCommandArgsNotEnough",
    b! "\t}",
    b! "",
    b! "\tvals, err := datastruct.SMembers(c.Values[0])",
    b! "\tif err != nil {",
    b! "\t\treturn nil, err",
    b! "\t}",
    b! "",
    b! "\treturn protocol.NewResponse(true).AppendBulkStrings(vals...), nil",
    b! "}",
    b! "",
    b! "// sMove .",
    b! "func sMove(c *Command) (*protocol.Response, error) {",
    b! "\tif len(c.Values) < 3 {",
    b! "\t\treturn nil, ErrCommandArgsNotEnough",
    b! "\t}",
    b! "",
    b! "\tvar (",
    b! "\t\tsource = c.Values[0]",
    b! "\t\ttarget = c.Values[1]",
    b! "\t\tvalue  = c.Values[2]",
    b! "\t)",
    b! ""]
  ++ [b! "\tres, err := datastruct.SMove(source, target, value)",
    b! "\tif err != nil {",
    b! "\t\treturn nil, err",
    b! "\t}",
    b! "",
    b! "\treturn protocol.NewResponseWithInteger(int64(res)), nil",
    b! "}",
    b! "",
    b! "// sRem .",
    b! "func sRem(c *Command) (*protocol.Response, error) {",
    b! "\tif len(c.Values) < 2 {",
    b! "\t\treturn nil, ErrCommandArgsNotEnough",
    b! "\t}",
    b! "",
    b! "\tcnt, err := datastruct.SRem(c.Values[0], c.Values[1:]...)",
    b! "\tif err != nil && err != datastruct.ErrNil {",
    b! "\t\treturn nil, err",
    b! "\t}",
    b! "",
    b! "\treturn protocol.NewResponseWithInteger(int64(cnt)), nil",
    b! "}",
    b! "",
    b! "// SPop .",
    b! "func SPop(c *Command) (*protocol.Response, error) {",
    b! "\tif len(c.Values) < 1 {",
    b! "\t\treturn nil, ErrCommandArgsNotEnough",
    b! "\t}",
    b! "",
    b! "\tvar (",
    b! "\t\tkey = c.Values[0]",
    b! "\t\tcnt int",
    b! "\t\terr error",
    b! "\t)",
    b! "",
    b! "\tif len(c.Values) > 1 {",
    b! "\t\tcnt, err = strconv.Atoi(c.Values[1])",
    b! "\t\tif err != nil {",
    b! "\t\t\treturn nil, datastruct.ErrNotInteger",
    b! "\t\t}",
    b! "\t}"]
  ++ [b! "",
    b! "\tvalues, err := datastruct.SPop(key, cnt)",
    b! "\tif err == datastruct.ErrNil {",
    b! "\t\treturn protocol.NewResponseWithEmptyArray(), nil",
    b! "\t}",
    b! "\tif err != nil {",
    b! "\t\treturn nil, err",
    b! "\t}",
    b! "",
    b! "\treturn protocol.NewResponse(true).AppendBulkStrings(values...), nil",
    b! "}"]

/-- redis/set.go -/
def src_set : Bytes := unlines src_set_lines

/-- the lines of redis/set.cmd.go:1-19 -/
def cmd_set_lines : List Bytes :=
  [b! "// Code generated by gen_redis_cmd. DO NOT EDIT.",
    b! "",
    b! "package redis",
    b! "",
    b! "func init() {",
    b! "\timplementedCommands[\"sadd\"] = sAdd",
    b! "\timplementedCommands[\"scard\"] = sCard",
    b! "\timplementedCommands[\"sdiff\"] = sDiff",
    b! "\timplementedCommands[\"sdiffstore\"] = sDiffStore",
    b! "\timplementedCommands[\"sinter\"] = sInter",
    b! "\timplementedCommands[\"sinterstore\"] = sInterStore",
    b! "\timplementedCommands[\"sunion\"] = sUnion",
    b! "\timplementedCommands[\"sunionstore\"] = sUnionStore",
    b! "\timplementedCommands[\"sismember\"] = sIsMember",
    b! "\timplementedCommands[\"smembers\"] = sMembers",
    b! "\timplementedCommands[\"smove\"] = sMove",
    b! "\timplementedCommands[\"srem\"] = sRem",
    b! "\timplementedCommands[\"spop\"] = SPop",
    b! "}"]

/-- redis/set.cmd.go -/
def cmd_set : Bytes := unlines cmd_set_lines

/-- the lines of redis/sorted_set.go:1-316 -/
def src_sorted_set_lines : List Bytes :=
  [b! "package redis",
    b! "",
    b! "import (",
    b! "\t\"strconv\"",
    b! "\t\"strings\"",
    b! "",
    b! "\t\"github.com/yusank/godis/datastruct\"",
    b! "\t\"github.com/yusank/godis/protocol\"",
    b! ")",
    b! "",
    b! "//go:generate gen_redis_cmd \"./sorted_set.go\"",
    b! "",
    b! "// zAdd .",
    b! "func zAdd(c *Command) (*protocol.Response, error) {",
    b! "\tif len(c.Values) < 3 {",
    b! "\t\treturn nil, ErrCommandArgsNotEnough",
    b! "\t}",
    b! "",
    b! "\tvar (",
    b! "\t\tkey     = c.Values[0]",
    b! "\t\tmembers = make([]*datastruct.ZSetMember, 0)",
    b! "\t\tflag    int",
    b! "\t)",
    b! "",
    b! "\tfor i := 1; i < len(c.Values)-1; {",
    b! "\t\tswitch strings.ToLower(c.Values[i]) {",
    b! "\t\tcase \"xx\":",
    b! "\t\t\tflag |= datastruct.ZAddInXx",
    b! "\t\t\ti++",
    b! "\t\tcase \"nx\":",
    b! "\t\t\tflag |= datastruct.ZAddInNx",
    b! "\t\t\ti++",
    b! "\t\tcase \"incr\":",
    b! "\t\t\tflag |= datastruct.ZAddInIncr",
    b! "\t\t\ti++",
    b! "\t\t// add more",
    b! "\t\tdefault:",
    b! "\t\t\tscore, err := strconv.ParseFloat(c.Values[i], 64)",
    b! "\t\t\tif err != nil {",
    b! "\t\t\t\treturn nil, ErrValueOutOfRange"]
  ++ [b! "\t\t\t}",
    b! "",
    b! "\t\t\tmembers = append(members, &datastruct.ZSetMember{",
    b! "\t\t\t\tScore: score,",
    b! "\t\t\t\tValue: c.Values[i+1],",
    b! "\t\t\t})",
    b! "\t\t\ti += 2",
    b! "\t\t}",
    b! "\t}",
    b! "",
    b! "\tcnt, err := datastruct.ZAdd(key, members, flag)",
    b! "\tif err != nil {",
    b! "\t\treturn nil, err",
    b! "\t}",
    b! "",
    b! "\treturn protocol.NewResponseWithInteger(int64(cnt)), nil",
    b! "}",
    b! "",
    b! "// zScore .",
    b! "func zScore(c *Command) (*protocol.Response, error) {",
    b! "\tif len(c.Values) < 2 {",
    b! "\t\treturn nil, ErrCommandArgsNotEnough",
    b! "\t}",
    b! "",
    b! "\tf, err := datastruct.ZScore(c.Values[0], c.Values[1])",
    b! "\tif err == datastruct.ErrNil {",
    b! "\t\treturn protocol.NewResponseWithNilBulk(), nil",
    b! "\t}",
    b! "",
    b! "\tif err != nil {",
    b! "\t\treturn nil, err",
    b! "\t}",
    b! "",
    b! "\treturn protocol.NewResponseWithBulkString(strconv.FormatFloat(f, 'g', -1, 64)), nil",
    b! "}",
    b! "",
    b! "// zRank .",
    b! "func zRank(c *Command) (*protocol.Response, error) {",
    b! "\tif len(c.Values) < 2 {",
    b! "\t\treturn nil, ErrCommandArgsNotEnough"]
  ++ [b! "\t}",
    b! "",
    b! "\trank, err := datastruct.ZRank(c.Values[0], c.Values[1])",
    b! "\tif err == datastruct.ErrNil {",
    b! "\t\treturn protocol.NewResponseWithNilBulk(), nil",
    b! "\t}",
    b! "",
    b! "\tif err != nil {",
    b! "\t\treturn nil, err",
    b! "\t}",
    b! "",
    b! "\treturn protocol.NewResponseWithInteger(int64(rank)), nil",
    b! "}",
    b! "",
    b! "// zRem .",
    b! "func zRem(c *Command) (*protocol.Response, error) {",
    b! "\tif len(c.Values) < 2 {",
    b! "\t\treturn nil, ErrCommandArgsNotEnough",
    b! "\t}",
    b! "",
    b! "\tcnt, err := datastruct.ZRem(c.Values[0], c.Values[1:]...)",
    b! "\tif err == datastruct.ErrNil {",
    b! "\t\treturn protocol.NewResponseWithInteger(0), nil",
    b! "\t}",
    b! "\tif err != nil {",
    b! "\t\treturn nil, err",
    b! "\t}",
    b! "",
    b! "\treturn protocol.NewResponseWithInteger(int64(cnt)), nil",
    b! "}",
    b! "",
    b! "// zCard .",
    b! "func zCard(c *Command) (*protocol.Response, error) {",
    b! "\tif len(c.Values) < 1 {",
    b! "\t\treturn nil, ErrCommandArgsNotEnough",
    b! "\t}",
    b! "",
    b! "\tcnt, err := datastruct.ZCard(c.Values[0])",
    b! "\tif err == datastruct.ErrNil {",
    b! "\t\treturn protocol.NewResponseWithInteger(0), nil"]
  ++ [b! "\t}",
    b! "\tif err != nil {",
    b! "\t\treturn nil, err",
    b! "\t}",
    b! "",
    b! "\treturn protocol.NewResponseWithInteger(int64(cnt)), nil",
    b! "}",
    b! "",
    b! "// zCount .",
    b! "func zCount(c *Command) (*protocol.Response, error) {",
    b! "\tif len(c.Values) < 3 {",
    b! "\t\treturn nil, ErrCommandArgsNotEnough",
    b! "\t}",
    b! "",
    b! "\tvar (",
    b! "\t\tkey    = c.Values[0]",
    b! "\t\tminStr = strings.ToLower(c.Values[1])",
    b! "\t\tmaxStr = strings.ToLower(c.Values[2])",
    b! "\t)",
    b! "",
    b! "\tcnt, err := datastruct.ZCount(key, minStr, maxStr)",
    b! "\tif err == datastruct.ErrNil {",
    b! "\t\treturn protocol.NewResponseWithInteger(0), nil",
    b! "\t}",
    b! "\tif err != nil {",
    b! "\t\treturn nil, err",
    b! "\t}",
    b! "",
    b! "\treturn protocol.NewResponseWithInteger(int64(cnt)), nil",
    b! "}",
    b! "",
    b! "// zIncr .",
    b! "func zIncr(c *Command) (*protocol.Response, error) {",
    b! "\tif len(c.Values) < 3 {",
    b! "\t\treturn nil, ErrCommandArgsNotEnough",
    b! "\t}",
    b! "",
    b! "\tscore, err := strconv.ParseFloat(c.Values[1], 64)",
    b! "\tif err != nil {",
    b! "\t\treturn nil, ErrValueOutOfRange"]
  ++ [b! "\t}",
    b! "",
    b! "\tcurScore, err := datastruct.ZIncr(c.Values[0], score, c.Values[2])",
    b! "\tif err == datastruct.ErrNil {",
    b! "\t\treturn protocol.NewResponseWithInteger(0), nil",
    b! "\t}",
    b! "\tif err != nil {",
    b! "\t\treturn nil, err",
    b! "\t}",
    b! "",
    b! "\treturn protocol.NewResponseWithBulkString(strconv.FormatFloat(curScore, 'g', -1, 64)), nil",
    b! "}",
    b! "",
    b! "// zRange .",
    b! "func zRange(c *Command) (*protocol.Response, error) {",
    b! "\tif len(c.Values) < 3 {",
    b! "\t\treturn nil, ErrCommandArgsNotEnough",
    b! "\t}",
    b! "",
    b! "\tvar (",
    b! "\t\tkey    = c.Values[0]",
    b! "\t\tminStr = c.Values[1]",
    b! "\t\tmaxStr = c.Values[2]",
    b! "\t\tflag   = datastruct.ZRangeInNone",
    b! "\t)",
    b! "",
    b! "\tfor _, s := range c.Values[2:] {",
    b! "\t\tswitch strings.ToLower(s) {",
    b! "\t\tcase \"withscores\":",
    b! "\t\t\tflag |= datastruct.ZRangeInWithScores",
    b! "\t\tcase \"byscore\":",
    b! "\t\t\tflag |= datastruct.ZRangeInByScore",
    b! "",
    b! "\t\t}",
    b! "\t}",
    b! "",
    b! "\tvalues, err := datastruct.ZRange(key, minStr, maxStr, flag)",
    b! "\tif err == datastruct.ErrNil {",
    b! "\t\treturn protocol.NewResponseWithNilBulk(), nil",
    b! "\t}"]
  ++ [b! "\tif err != nil {",
    b! "\t\treturn nil, err",
    b! "\t}",
    b! "",
    b! "\treturn protocol.NewResponse(true).AppendBulkStrings(values...), nil",
    b! "}",
    b! "",
    b! "// zRangeByScore .",
    b! "func zRangeByScore(c *Command) (*protocol.Response, error) {",
    b! "\tif len(c.Values) < 3 {",
    b! "\t\treturn nil, ErrCommandArgsNotEnough",
    b! "\t}",
    b! "",
    b! "\tvalues, err := datastruct.ZRange(c.Values[0], c.Values[1], c.Values[2], datastruct.ZRangeInByScore)",
    b! "\tif err == datastruct.ErrNil {",
    b! "\t\treturn protocol.NewResponseWithNilBulk(), nil",
    b! "\t}",
    b! "\tif err != nil {",
    b! "\t\treturn nil, err",
    b! "\t}",
    b! "",
    b! "\treturn protocol.NewResponse(true).AppendBulkStrings(values...), nil",
    b! "}",
    b! "",
    b! "// zRevRange .",
    b! "func zRevRange(c *Command) (*protocol.Response, error) {",
    b! "\tif len(c.Values) < 3 {",
    b! "\t\treturn nil, ErrCommandArgsNotEnough",
    b! "\t}",
    b! "",
    b! "\tvar (",
    b! "\t\tkey    = c.Values[0]",
    b! "\t\tminStr = c.Values[1]",
    b! "\t\tmaxStr = c.Values[2]",
    b! "\t\tflag   = datastruct.ZRangeInNone",
    b! "\t)",
    b! "",
    b! "\tfor _, s := range c.Values[2:] {",
    b! "\t\tswitch strings.ToLower(s) {",
    b! "\t\tcase \"withscores\":"]
  ++ [b! "\t\t\tflag |= datastruct.ZRangeInWithScores",
    b! "\t\t}",
    b! "\t}",
    b! "",
    b! "\tvalues, err := datastruct.ZRevRange(key, minStr, maxStr, flag)",
    b! "\tif err == datastruct.ErrNil {",
    b! "\t\treturn protocol.NewResponseWithNilBulk(), nil",
    b! "\t}",
    b! "\tif err != nil {",
    b! "\t\treturn nil, err",
    b! "\t}",
    b! "",
    b! "\treturn protocol.NewResponse(true).AppendBulkStrings(values...), nil",
    b! "}",
    b! "",
    b! "// zPopMin .",
    b! "func zPopMin(c *Command) (*protocol.Response, error) {",
    b! "\tif len(c.Values) < 1 {",
    b! "\t\treturn nil, ErrCommandArgsNotEnough",
    b! "\t}",
    b! "",
    b! "\tvar (",
    b! "\t\tkey = c.Values[0]",
    b! "\t\tcnt = 1",
    b! "\t\terr error",
    b! "\t)",
    b! "",
    b! "\tif len(c.Values) > 1 {",
    b! "\t\tcnt, err = strconv.Atoi(c.Values[1])",
    b! "\t\tif err != nil {",
    b! "\t\t\treturn nil, datastruct.ErrNotInteger",
    b! "\t\t}",
    b! "\t}",
    b! "",
    b! "\tvalues, err := datastruct.ZPopMin(key, cnt)",
    b! "\tif err == datastruct.ErrNil || len(values) == 0 {",
    b! "\t\treturn protocol.NewResponseWithEmptyArray(), nil",
    b! "\t}",
    b! "",
    b! "\tif err != nil {"]
  ++ [b! "\t\treturn nil, err",
    b! "\t}",
    b! "",
    b! "\treturn protocol.NewResponse(true).AppendBulkStrings(values...), nil",
    b! "}",
    b! "",
    b! "// zPopMax .",
    b! "func zPopMix(c *Command) (*protocol.Response, error) {",
    b! "\tif len(c.Values) < 1 {",
    b! "\t\treturn nil, ErrCommandArgsNotEnough",
    b! "\t}",
    b! "",
    b! "\tvar (",
    b! "\t\tkey = c.Values[0]",
    b! "\t\tcnt = 1",
    b! "\t\terr error",
    b! "\t)",
    b! "",
    b! "\tif len(c.Values) > 1 {",
    b! "\t\tcnt, err = strconv.Atoi(c.Values[1])",
    b! "\t\tif err != nil {",
    b! "\t\t\treturn nil, datastruct.ErrNotInteger",
    b! "\t\t}",
    b! "\t}",
    b! "",
    b! "\tvalues, err := datastruct.ZPopMax(key, cnt)",
    b! "\tif err == datastruct.ErrNil || len(values) == 0 {",
    b! "\t\treturn protocol.NewResponseWithEmptyArray(), nil",
    b! "\t}",
    b! "",
    b! "\tif err != nil {",
    b! "\t\treturn nil, err",
    b! "\t}",
    b! "",
    b! "\treturn protocol.NewResponse(true).AppendBulkStrings(values...), nil",
    b! "}"]

/-- redis/sorted_set.go -/
def src_sorted_set : Bytes := unlines src_sorted_set_lines

/-- the lines of redis/sorted_set.cmd.go:1-18 -/
def cmd_sorted_set_lines : List Bytes :=
  [b! "// Code generated by gen_redis_cmd. DO NOT EDIT.",
    b! "",
    b! "package redis",
    b! "",
    b! "func init() {",
    b! "\timplementedCommands[\"zadd\"] = zAdd",
    b! "\timplementedCommands[\"zscore\"] = zScore",
    b! "\timplementedCommands[\"zrank\"] = zRank",
    b! "\timplementedCommands[\"zrem\"] = zRem",
    b! "\timplementedCommands[\"zcard\"] = zCard",
    b! "\timplementedCommands[\"zcount\"] = zCount",
    b! "\timplementedCommands[\"zincr\"] = zIncr",
    b! "\timplementedCommands[\"zrange\"] = zRange",
    b! "\timplementedCommands[\"zrangebyscore\"] = zRangeByScore",
    b! "\timplementedCommands[\"zrevrange\"] = zRevRange",
    b! "\timplementedCommands[\"zpopmin\"] = zPopMin",
    b! "\timplementedCommands[\"zpopmax\"] = zPopMix",
    b! "}"]

/-- redis/sorted_set.cmd.go -/
def cmd_sorted_set : Bytes := unlines cmd_sorted_set_lines

/-- the lines of redis/string.go:1-132 -/
def src_string_lines : List Bytes :=
  [b! "package redis",
    b! "",
    b! "import (",
    b! "\t\"strconv\"",
    b! "",
    b! "\t\"github.com/yusank/godis/datastruct\"",
    b! "\t\"github.com/yusank/godis/protocol\"",
    b! ")",
    b! "",
    b! "//go:generate gen_redis_cmd \"./string.go\"",
    b! "",
    b! "func set(c *Command) (*protocol.Response, error) {",
    b! "\tif len(c.Values) < 2 {",
    b! "\t\treturn nil, ErrCommandArgsNotEnough",
    b! "\t}",
    b! "",
    b! "\tdatastruct.Set(c.Values[0], c.Values[1], c.Values[2:]...)",
    b! "\treturn protocol.NewResponseWithSimpleString(RespOK), nil",
    b! "}",
    b! "",
    b! "// mSet .",
    b! "func mSet(c *Command) (*protocol.Response, error) {",
    b! "\tif len(c.Values) < 2 && len(c.Values)%2 != 0 {",
    b! "\t\treturn nil, ErrCommandArgsNotEnough",
    b! "\t}",
    b! "",
    b! "\tdatastruct.MSet(c.Values...)",
    b! "\treturn protocol.NewResponseWithSimpleString(RespOK), nil",
    b! "}",
    b! "",
    b! "func get(c *Command) (*protocol.Response, error) {",
    b! "\tif len(c.Values) < 1 {",
    b! "\t\treturn nil, ErrCommandArgsNotEnough",
    b! "\t}",
    b! "",
    b! "\tval, err := datastruct.Get(c.Values[0])",
    b! "\tif err == datastruct.ErrNil {",
    b! "\t\treturn protocol.NewResponseWithNilBulk(), nil",
    b! "\t}",
    b! ""]
  ++ [b! "\tif err != nil {",
    b! "\t\treturn nil, err",
    b! "\t}",
    b! "",
    b! "\treturn protocol.NewResponse().AppendBulkInterfaces(val), nil",
    b! "}",
    b! "",
    b! "func mget(c *Command) (*protocol.Response, error) {",
    b! "\tif len(c.Values) < 1 {",
    b! "\t\treturn nil, ErrCommandArgsNotEnough",
    b! "\t}",
    b! "",
    b! "\tvalues := datastruct.MGet(c.Values...)",
    b! "",
    b! "\treturn protocol.NewResponse(true).AppendBulkInterfaces(values...), nil",
    b! "}",
    b! "",
    b! "func incr(c *Command) (*protocol.Response, error) {",
    b! "\tif len(c.Values) < 1 {",
    b! "\t\treturn nil, ErrCommandArgsNotEnough",
    b! "\t}",
    b! "",
    b! "\ti64, err := datastruct.IncrBy(c.Values[0], 1)",
    b! "\tif err != nil {",
    b! "\t\treturn nil, err",
    b! "\t}",
    b! "",
    b! "\treturn protocol.NewResponseWithInteger(i64), nil",
    b! "}",
    b! "",
    b! "func incrBy(c *Command) (*protocol.Response, error) {",
    b! "\tif len(c.Values) < 2 {",
    b! "\t\treturn nil, ErrCommandArgsNotEnough",
    b! "\t}",
    b! "",
    b! "\tincrement, err := strconv.ParseInt(c.Values[1], 10, 64)",
    b! "\tif err != nil {",
    b! "\t\treturn nil, datastruct.ErrNotInteger",
    b! "\t}",
    b! ""]
  ++ [b! "\ti64, err := datastruct.IncrBy(c.Values[0], increment)",
    b! "\tif err != nil {",
    b! "\t\treturn nil, err",
    b! "\t}",
    b! "",
    b! "\treturn protocol.NewResponseWithInteger(i64), nil",
    b! "}",
    b! "",
    b! "func decr(c *Command) (*protocol.Response, error) {",
    b! "\tif len(c.Values) < 1 {",
    b! "\t\treturn nil, ErrCommandArgsNotEnough",
    b! "\t}",
    b! "",
    b! "\ti64, err := datastruct.IncrBy(c.Values[0], -1)",
    b! "\tif err != nil {",
    b! "\t\treturn nil, err",
    b! "\t}",
    b! "",
    b! "\treturn protocol.NewResponseWithInteger(i64), nil",
    b! "}",
    b! "",
    b! "func decrBy(c *Command) (*protocol.Response, error) {",
    b! "\tif len(c.Values) < 2 {",
    b! "\t\treturn nil, ErrCommandArgsNotEnough",
    b! "\t}",
    b! "",
    b! "\tdecrement, err := strconv.ParseInt(c.Values[1], 10, 64)",
    b! "\tif err != nil {",
    b! "\t\treturn nil, datastruct.ErrNotInteger",
    b! "\t}",
    b! "",
    b! "\ti64, err := datastruct.IncrBy(c.Values[0], -decrement)",
    b! "\tif err != nil {",
    b! "\t\treturn nil, err",
    b! "\t}",
    b! "",
    b! "\treturn protocol.NewResponseWithInteger(i64), nil",
    b! "}",
    b! "",
    b! "// append"]
  ++ [b! "func stringAppend(c *Command) (*protocol.Response, error) {",
    b! "\tif len(c.Values) < 2 {",
    b! "\t\treturn nil, ErrCommandArgsNotEnough",
    b! "\t}",
    b! "",
    b! "\ti, err := datastruct.Append(c.Values[0], c.Values[1])",
    b! "\tif err != nil {",
    b! "\t\treturn nil, err",
    b! "\t}",
    b! "",
    b! "\treturn protocol.NewResponseWithInteger(int64(i)), nil",
    b! "}"]

/-- redis/string.go -/
def src_string : Bytes := unlines src_string_lines

/-- the lines of redis/string.cmd.go:1-15 -/
def cmd_string_lines : List Bytes :=
  [b! "// Code generated by gen_redis_cmd. DO NOT EDIT.",
    b! "",
    b! "package redis",
    b! "",
    b! "func init() {",
    b! "\timplementedCommands[\"set\"] = set",
    b! "\timplementedCommands[\"mset\"] = mSet",
    b! "\timplementedCommands[\"get\"] = get",
    b! "\timplementedCommands[\"mget\"] = mget",
    b! "\timplementedCommands[\"incr\"] = incr",
    b! "\timplementedCommands[\"incrby\"] = incrBy",
    b! "\timplementedCommands[\"decr\"] = decr",
    b! "\timplementedCommands[\"decrby\"] = decrBy",
    b! "\timplementedCommands[\"append\"] = stringAppend",
    b! "}"]

/-- redis/string.cmd.go -/
def cmd_string : Bytes := unlines cmd_string_lines

end Godis.GenData
