import zipfile,sys,xml.etree.ElementTree as ET,glob,os
T='{urn:oasis:names:tc:opendocument:xmlns:table:1.0}'; O='{urn:oasis:names:tc:opendocument:xmlns:office:1.0}'; X='{urn:oasis:names:tc:opendocument:xmlns:text:1.0}'
def read(fn):
  r=ET.fromstring(zipfile.ZipFile(fn).read('content.xml')); out={}
  for t in r.iter(T+'table'):
    rows=[]
    for row in t.iter(T+'table-row'):
      n=int(row.get(T+'number-rows-repeated','1'))
      cells=[]
      for c in row:
        if not c.tag.endswith('table-cell'): continue
        k=int(c.get(T+'number-columns-repeated','1'))
        ty=c.get(O+'value-type')
        v=None
        if ty in('float','percentage','currency'): v=float(c.get(O+'value'))
        elif ty=='date': v=c.get(O+'date-value')
        elif ty is not None: v=''.join(''.join(p.itertext()) for p in c.iter(X+'p'))
        if v is None and k>50: continue
        cells+= [v]*k
      while cells and cells[-1] is None: cells.pop()
      if not cells: continue
      rows+=[cells]*(n if n<5000 else 1)
    out[t.get(T+'name')]=rows
  return out
if __name__=='__main__':
  for f in sorted(glob.glob('/repo/tensorstream/**/*.ods',recursive=True)):
    for k,rows in read(f).items():
      print(os.path.relpath(f,'/repo/tensorstream'),k,len(rows),'|',rows[0] if rows else None); 
      for r in rows[1:4]: print('     ',r)
