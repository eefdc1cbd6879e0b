207003 0: ok
  flagBits: int 0, expected "0000000"
  reservedBits: int 0, expected "00000000"
  flagBits: int 0, expected "000000"
  reservedBits: int 0, expected "00000000"
  31 header fields, 2 subsets, 134 values compared; 4 differences
207003 after the last: ERR Gobufr.Err.wrap "cannot peek bytes" (Gobufr.Err.eof)
ISMD01_OKPR 0: ok
  reservedBits: int 0, expected "00000000"
  flagBits: int 0, expected "000000"
  reservedBits: int 0, expected "00000000"
  32 header fields, 7 subsets, 812 values compared; 3 differences
ISMD01_OKPR 1: ok
  reservedBits: int 0, expected "00000000"
  flagBits: int 0, expected "000000"
  reservedBits: int 0, expected "00000000"
  32 header fields, 7 subsets, 812 values compared; 3 differences
ISMD01_OKPR 2: ok
  reservedBits: int 0, expected "00000000"
  flagBits: int 0, expected "000000"
  reservedBits: int 0, expected "00000000"
  32 header fields, 7 subsets, 812 values compared; 3 differences
ISMD01_OKPR 3: ok
  reservedBits: int 0, expected "00000000"
  flagBits: int 0, expected "000000"
  reservedBits: int 0, expected "00000000"
  32 header fields, 7 subsets, 840 values compared; 3 differences
ISMD01_OKPR after the last: ERR Gobufr.Err.wrap "cannot peek bytes" (Gobufr.Err.eof)
IUSK73_AMMC_040000 0: ok
  reservedBits: int 0, expected "00000000"
  flagBits: int 0, expected "000000"
  reservedBits: int 0, expected "00000000"
  subset 0[2]: bytes none, expected "���������"
  31 header fields, 1 subsets, 27470 values compared; 4 differences
IUSK73_AMMC_040000 after the last: ERR Gobufr.Err.wrap "cannot peek bytes" (Gobufr.Err.eof)
IUSK73_AMMC_182300 0: ok
  reservedBits: int 0, expected "00000000"
  flagBits: int 0, expected "000000"
  reservedBits: int 0, expected "00000000"
  subset 0[2]: bytes none, expected "���������"
  31 header fields, 1 subsets, 1310 values compared; 4 differences
IUSK73_AMMC_182300 after the last: ERR Gobufr.Err.wrap "cannot peek bytes" (Gobufr.Err.eof)
amv2_87 0: ok
  flagBits: int 0, expected "0000000"
  reservedBits: int 0, expected "00000000"
  flagBits: int 0, expected "000000"
  reservedBits: int 0, expected "00000000"
  35 header fields, 128 subsets, 33280 values compared; 4 differences
amv2_87 after the last: ERR Gobufr.Err.wrap "cannot peek bytes" (Gobufr.Err.eof)
asr3_190 0: ok
  flagBits: int 0, expected "0000000"
  reservedBits: int 0, expected "00000000"
  flagBits: int 0, expected "000000"
  reservedBits: int 0, expected "00000000"
  34 header fields, 128 subsets, 67456 values compared; 4 differences
asr3_190 1: ok
  flagBits: int 0, expected "0000000"
  reservedBits: int 0, expected "00000000"
  flagBits: int 0, expected "000000"
  reservedBits: int 0, expected "00000000"
  34 header fields, 128 subsets, 67456 values compared; 4 differences
asr3_190 2: ok
  flagBits: int 0, expected "0000000"
  reservedBits: int 0, expected "00000000"
  flagBits: int 0, expected "000000"
  reservedBits: int 0, expected "00000000"
  34 header fields, 98 subsets, 51646 values compared; 4 differences
asr3_190 after the last: ERR Gobufr.Err.wrap "cannot peek bytes" (Gobufr.Err.eof)
b002_95 0: ok
  flagBits: int 0, expected "0000000"
  reservedBits: int 0, expected "00000000"
  flagBits: int 0, expected "000000"
  reservedBits: int 0, expected "00000000"
  33 header fields, 1 subsets, 492 values compared; 4 differences
b002_95 after the last: ERR Gobufr.Err.wrap "cannot peek bytes" (Gobufr.Err.eof)
b005_89 0: ok
  flagBits: int 0, expected "0000000"
  reservedBits: int 0, expected "00000000"
  flagBits: int 0, expected "000000"
  reservedBits: int 0, expected "00000000"
  35 header fields, 128 subsets, 30720 values compared; 4 differences
b005_89 after the last: ERR Gobufr.Err.wrap "cannot peek bytes" (Gobufr.Err.eof)
contrived 0: ok
  reservedBits: int 0, expected "00000000"
  flagBits: int 0, expected "000000"
  reservedBits: int 0, expected "00000000"
  subset 1: 20 values, expected 0
  padding: bits 000000, expected "1011111110111100000000011001100101100101010010010000111010110000000100001100101000100001101010101111110000100010000010010000000"
  31 header fields, 2 subsets, 40 values compared; 5 differences
contrived after the last: ERR Gobufr.Err.wrap "cannot peek bytes" (Gobufr.Err.eof)
g2nd_208 0: PANIC index out of range
g2nd_208 after the last: ERR Gobufr.Err.wrap "cannot peek bytes" (Gobufr.Err.msg "can only peek at complete byte boundary")
jaso_214 0: ok
  flagBits: int 0, expected "0000000"
  reservedBits: int 0, expected "00000000"
  flagBits: int 0, expected "000000"
  reservedBits: int 0, expected "00000000"
  33 header fields, 128 subsets, 9600 values compared; 4 differences
jaso_214 after the last: ERR Gobufr.Err.wrap "cannot peek bytes" (Gobufr.Err.eof)
mpco_217 0: PANIC index out of range
mpco_217 after the last: ERR Gobufr.Err.wrap "cannot peek bytes" (Gobufr.Err.eof)
profiler_european 0: ok
  flagBits: int 0, expected "0000000"
  reservedBits: int 0, expected "00000000"
  flagBits: int 0, expected "000000"
  reservedBits: int 0, expected "00000000"
  34 header fields, 1 subsets, 309 values compared; 4 differences
profiler_european after the last: ERR Gobufr.Err.wrap "cannot peek bytes" (Gobufr.Err.eof)
rado_250 0: ERR Gobufr.Err.wrap "lua" (Gobufr.Err.msg "inconsistent number of bits and target nodes")
rado_250 after the last: ERR Gobufr.Err.wrap "cannot peek bytes" (Gobufr.Err.msg "can only peek at complete byte boundary")
uegabe 0: ok
  reservedBits: int 0, expected "00000000"
  flagBits: int 0, expected "000000"
  reservedBits: int 0, expected "00000000"
  subset 0[6]: bytes none, expected "���������"
  35 header fields, 1 subsets, 334 values compared; 4 differences
uegabe after the last: ERR Gobufr.Err.wrap "cannot peek bytes" (Gobufr.Err.eof)
